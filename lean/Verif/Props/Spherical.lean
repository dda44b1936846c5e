import Verif.Spec.Spherical
import Verif.Props.Refine
import Verif.Props.Resolved
/-
C95: spherical symmetry around a hole that does not rotate.
-/
namespace SFK
open Scalar CR Kerr

variable {E : Env CR} {P : ParamRec CR} {g : Grid CR} {q : Phys} {x : ℕ → ℝ} {A : ℕ → ℕ → ℕ → ℝ} {e : Eom CR}

theorem dPh_const (y θ φ : ℝ) : dPh (fun _ _ => y) θ φ = 0 := by unfold dPh; simp
theorem dTh_const (y θ φ : ℝ) : dTh (fun _ _ => y) θ φ = 0 := by unfold dTh; simp

theorem gradSq_const (y θ φ : ℝ) : gradSq (fun _ _ => y) θ φ = 0 := by unfold gradSq; rw [dPh_const, dTh_const]; simp

theorem lapS2_const (y θ φ : ℝ) : lapS2 (fun _ _ => y) θ φ = 0 := by
  unfold lapS2
  have h1 : dPh (fun _ _ => y) = fun _ _ => 0 := by funext a b; exact dPh_const _ _ _
  have h2 : ∀ t, dTh (fun _ _ => y) t φ = 0 := fun t => dTh_const _ _ _
  rw [h1, dPh_const]
  simp [h2]

theorem constCf_real (y : ℝ) (l : ℕ) : (constCf y l 0).im = 0 := by
  unfold constCf; split_ifs <;> simp

theorem constCf_top (y : ℝ) {L : ℕ} (hL : 1 ≤ L) (m : ℕ) : constCf y L m = 0 := by
  unfold constCf; rw [if_neg (by omega)]

/-- a spherically symmetric finite array -/
theorem Spherical.fn (h : Exact E P g q x A) {v : List CR} (hs : Spherical g.d v) (hv : v.length = g.d.total) (hf : AllFin v) :
    ∃ y : ℕ → ℝ, ∀ ix it ip, g.d.InR ix it ip → g.d.at3 v ix it ip = fin (y ix) := by
  obtain ⟨z, hz⟩ := hf.isF hv
  have hw := h.setup.wf
  have e2 := h.nlat
  have e3 := h.nphi
  have p1 := h.setup.sizes.nlat_pos
  have p2 := h.setup.sizes.nphi_pos
  refine ⟨fun ix => z (g.d.pos3 ix 0 0), fun ix it ip hr => ?_⟩
  have h0 : g.d.InR ix 0 0 := ⟨hr.1, by omega, by omega⟩
  rw [hs ix it ip 0 0 hr.1 hr.2.1 hr.2.2 h0.2.1 h0.2.2, hw.ok.at3_eq _ h0]
  exact hz.2 _ (g.d.pos3_lt h0)

/-- the angular operators on a spherically symmetric field -/
theorem spherical_angular (h : Exact E P g q x A) (hnm : 1 ≤ P.nm) {v : List CR} (hs : Spherical g.d v)
    (hv : v.length = g.d.total) (hf : AllFin v) {i : ℕ} (hi : i < g.d.total) :
    gv (g.pphiP v) i = fin 0 ∧ gv (g.plapP v) i = fin 0 ∧ gv (g.psphXP v) i = fin 0 := by
  obtain ⟨y, hy⟩ := hs.fn h hv hf
  have hw := h.setup.wf
  have hm := h.math
  have hlm : g.sphere.lmax = P.nl := by rw [hw.lmax, h.setup.dims]
  have hmm : g.sphere.mmax = P.nm := by rw [hw.mmax, h.setup.dims]
  have hnl : 1 ≤ P.nl := by
    have : P.nm ≤ P.nl := by rw [← hlm, ← hmm]; exact hw.sph.api.m_le
    omega
  obtain ⟨k1, k2⟩ := g.d.dec3 hi
  obtain ⟨ix, hix⟩ : ∃ ix, ix = g.d.dX i := ⟨_, rfl⟩
  have hfc : fieldR g.sphere.lmax g.sphere.mmax (constCf (y ix)) = fun _ _ => y ix := by
    funext a b; exact fieldR_const _ _ _ _ _
  have hsam : Samples g.d.contig g.sphere.nlat g.sphere.nphi x (g.d.shellOf v ix) (fieldR g.sphere.lmax g.sphere.mmax (constCf (y ix))) := by
    rw [hfc]
    refine ⟨by rw [hw.nlat, hw.nphi, Dims.shellOf_length]; rfl, fun it ip a b => ?_⟩
    rw [hw.nlat] at a
    rw [hw.nphi] at b
    rw [hw.nlat, hw.nphi, ← pos2_eq_spos, ← hw.ok.indx2 a b, ← hy ix it ip ⟨by rw [hix]; exact k1.1, a, b⟩]
    exact hw.ok.at2_mk2 a b
  have hreal : ∀ l, l ≤ g.sphere.lmax → (constCf (y ix) l 0).im = 0 := fun l _ => constCf_real _ _
  have hres : SFK.Resolved g.sphere (constCf (y ix)) := by
    intro l m a b c
    unfold constCf
    rw [if_neg (by rw [hlm, hmm] at b; omega)]
  have htt : constCf (y ix) g.sphere.mmax g.sphere.mmax = 0 := by
    rw [hmm]
    exact constCf_top _ hnm _
  have hbel : Below g.sphere (constCf (y ix)) := by
    intro l m a b c d
    unfold constCf
    rw [if_neg (by rw [hlm, hmm] at d; omega)]
  obtain ⟨J⟩ : Nonempty (Junk (Cx CR)) := ⟨fun _ _ => ⟨fin 0, fin 0⟩⟩
  obtain ⟨z, hz⟩ : ∃ z : List CR, z.length = g.sphere.nSph := ⟨List.replicate g.sphere.nSph (fin 0), List.length_replicate⟩
  have hsl : (g.d.shellOf v ix).length = g.sphere.nSph := by rw [Dims.shellOf_length, hw.nSph_eq]
  obtain ⟨w1, c1, d1⟩ := C24_true_derivative_partial hw.sph hm J hreal hbel hsam hz
  obtain ⟨w2, c2, d2⟩ := C23_true_laplacian_partial hw.sph hm J hreal hbel hsam hz
  obtain ⟨w3, c3, d3⟩ := C26_gradient_partial hw.sph hm h.setup.full J hreal hres htt hsam hz
  rw [hw.sph.partial_phi_eq J hsl hz] at c1
  rw [hw.sph.laplace_eq J hsl hz] at c2
  rw [hw.sph.sphereX_eq h.setup.full J hsl hz] at c3
  cases c1; cases c2; cases c3
  rw [hfc] at d1 d2 d3
  have a1 : g.d.dT i < g.sphere.nlat := by rw [hw.nlat]; exact k1.2.1
  have a2 : g.d.dP i < g.sphere.nphi := by rw [hw.nphi]; exact k1.2.2
  have t1 := d1.2 _ _ a1 a2
  have t2 := d2.2 _ _ a1 a2
  have t3 := d3.2 _ _ a1 a2
  rw [dPh_const] at t1
  rw [lapS2_const] at t2
  rw [gradSq_const] at t3
  have go : ∀ T : List CR → List CR, gv (T (g.d.shellOf v ix)) (spos g.d.contig g.sphere.nlat g.sphere.nphi (g.d.dT i) (g.d.dP i)) = fin 0 →
      gv (g.d.ofShells fun ix => T (g.d.shellOf v ix)) i = fin 0 := by
    intro T hT
    have := hw.ok.at3_ofShells (fun ix => T (g.d.shellOf v ix)) k1
    rw [hw.ok.at3_eq _ k1, k2] at this
    rw [this, ← hix]
    unfold Dims.at2
    rw [hw.ok.indx2 k1.2.1 k1.2.2, pos2_eq_spos, ← hw.nlat, ← hw.nphi]
    exact hT
  exact ⟨go _ t1, go _ t2, go _ t3⟩

/-- the filter on a spherically symmetric field -/
theorem spherical_filt (h : Exact E P g q x A) {v : List CR} (hs : Spherical g.d v) (hv : v.length = g.d.total) (hf : AllFin v) : g.filtP v = v := by
  obtain ⟨y, hy⟩ := hs.fn h hv hf
  have hw := h.setup.wf
  refine list_ext_gv (by simp [hv]) fun i hi => ?_
  have hi : i < g.d.total := by simpa using hi
  obtain ⟨k1, k2⟩ := g.d.dec3 hi
  have hsam : Samples g.d.contig g.sphere.nlat g.sphere.nphi x (g.d.shellOf v (g.d.dX i)) (fun _ _ => y (g.d.dX i)) := by
    refine ⟨by rw [hw.nlat, hw.nphi, Dims.shellOf_length]; rfl, fun it ip a b => ?_⟩
    rw [hw.nlat] at a
    rw [hw.nphi] at b
    rw [hw.nlat, hw.nphi, ← pos2_eq_spos, ← hw.ok.indx2 a b, ← hy _ it ip ⟨k1.1, a, b⟩]
    exact hw.ok.at2_mk2 a b
  have := hw.ok.at3_ofShells (fun ix => g.sphere.filtP (g.d.shellOf v ix)) k1
  rw [hw.ok.at3_eq _ k1, k2, hw.sph.filtP_const h.math hsam] at this
  refine this.trans ?_
  unfold Dims.shellOf
  rw [hw.ok.at2_mk2 k1.2.1 k1.2.2, hw.ok.at3_eq _ k1, k2]

theorem coefU_nospin (M θ θ' u : ℝ) : coefU M 0 θ u = coefU M 0 θ' u := by
  unfold coefU Su
  simp

/-- without rotation the coefficients of the equation depend on the radius only -/
theorem coef_nospin (h : Exact E P g q x A) (he : Eom.Of g P e) (ho : q.Ok) (h0 : 0 < q.lo) (h1 : q.lo < q.up) (h2 : q.up ≤ q.L) (ha : q.a = 0)
    {i j : ℕ} (hi : i < g.d.total) (hj : j < g.d.total) (hij : g.d.dX i = g.d.dX j) : gv e.coef i = gv e.coef j := by
  have e1 := h.nx
  have e2 := h.nlat
  have e3 := h.nphi
  have key : ∀ i, i < g.d.total → ∀ u, invR (fin q.L) (fin q.L) (fin (radPt E.useCheb P.nx q.lo q.up (g.d.dX i))) = fin u → 0 ≤ u →
      gv e.coef i = (coefU q.M 0 0 u).map fin := by
    intro i hi u hv hu
    obtain ⟨k1, k2⟩ := g.d.dec3 hi
    have hx : g.d.dX i < P.nx := by rw [← e1]; exact k1.1
    have ht : g.d.dT i < P.nlat := by rw [← e2]; exact k1.2.1
    have hp : g.d.dP i < P.nphi := by rw [← e3]; exact k1.2.2
    have hc := he.coef_at h.setup hx ht hp (h.setup.coords h.phys h.env hx ht hp)
    dsimp only at hc
    rw [h.phys.M, h.phys.a, h.phys.L, hv, coefOf_eq ho.M_pos ho.spin ho.noRound hu, coefR_eq_map, ha, coefU_nospin _ _ 0] at hc
    rw [← hc]
    unfold Dims.at3
    rw [h.setup.wf.ok.indx3 k1, k2]
  have hx : g.d.dX i < P.nx := by rw [← e1]; exact (g.d.dec3 hi).1.1
  obtain ⟨m1, m2⟩ := radPt_mem (c := E.useCheb) h.setup.sizes.two.1 h1.le hx
  obtain ⟨u, hu, hv⟩ := invR_nonneg (R := radPt E.useCheb P.nx q.lo q.up (g.d.dX i)) ho.L_pos (by linarith) (by linarith)
  rw [key i hi u hv hu, key j hj u (by rw [← hij]; exact hv) hu]

/-- in terms of flat indices -/
theorem spherical_iff (h : Exact E P g q x A) {v : List CR} :
    Spherical g.d v ↔ ∀ i j, i < g.d.total → j < g.d.total → g.d.dX i = g.d.dX j → gv v i = gv v j := by
  have hw := h.setup.wf
  constructor
  · intro hs i j hi hj hij
    obtain ⟨a1, a2⟩ := g.d.dec3 hi
    obtain ⟨b1, b2⟩ := g.d.dec3 hj
    have := hs _ _ _ _ _ a1.1 a1.2.1 a1.2.2 b1.2.1 b1.2.2
    rw [hw.ok.at3_eq _ a1, a2, hw.ok.at3_eq _ ⟨a1.1, b1.2⟩, hij, b2] at this
    exact this
  · intro hs ix it ip it' ip' hx a b a' b'
    have r1 : g.d.InR ix it ip := ⟨hx, a, b⟩
    have r2 : g.d.InR ix it' ip' := ⟨hx, a', b'⟩
    rw [hw.ok.at3_eq _ r1, hw.ok.at3_eq _ r2]
    exact hs _ _ (g.d.pos3_lt r1) (g.d.pos3_lt r2) (by rw [g.d.dX_pos3 r1, g.d.dX_pos3 r2])

theorem spherical_lines (h : Exact E P g q x A) {v : List CR} (hs : Spherical g.d v) (T : List CR → List CR) :
    Spherical g.d (g.d.ofLines fun it ip => T (g.d.lineOf v it ip)) := by
  have hw := h.setup.wf
  have hl : ∀ it ip it' ip', it < g.d.nlat → ip < g.d.nphi → it' < g.d.nlat → ip' < g.d.nphi → g.d.lineOf v it ip = g.d.lineOf v it' ip' := by
    intro it ip it' ip' a b a' b'
    unfold Dims.lineOf
    exact tab_congr fun ix hx => hs ix it ip it' ip' hx a b a' b'
  intro ix it ip it' ip' hx a b a' b'
  rw [hw.ok.at3_ofLines _ ⟨hx, a, b⟩, hw.ok.at3_ofLines _ ⟨hx, a', b'⟩, hl it ip it' ip' a b a' b']

section nospin
variable (h : Exact E P g q x A) (he : Eom.Of g P e) (hnm : 1 ≤ P.nm) (ho : q.Ok) (h0 : 0 < q.lo) (h1 : q.lo < q.up)
  (h2 : q.up ≤ q.L) (ha : q.a = 0)
include h he hnm ho h0 h1 h2 ha

theorem spherical_rhs {F Q : List CR} (hF : F.length = g.d.total) (hFf : AllFin F) (sF : Spherical g.d F) (sQ : Spherical g.d Q) :
    Spherical g.d (e.rhs g F Q) := by
  obtain ⟨pr, p2r, ph, lap, fl, o⟩ := h.ops
  rw [spherical_iff h]
  intro i j hi hj hij
  obtain ⟨a1, a2, a3⟩ := spherical_angular h hnm sF hF hFf hi
  obtain ⟨b1, b2, b3⟩ := spherical_angular h hnm sF hF hFf hj
  have z1 : IsF g.d.total (g.pphiP F) fun _ => 0 := ⟨by simp, fun k hk => (spherical_angular h hnm sF hF hFf hk).1⟩
  have z2 := lin_zero o.pr.1 o.pr.2.1 z1
  have hc := coef_nospin h he ho h0 h1 h2 ha hi hj hij
  have e1 := (spherical_iff h).mp sF i j hi hj hij
  have e2 := (spherical_iff h).mp sQ i j hi hj hij
  have e3 : gv (g.prP F) i = gv (g.prP F) j := (spherical_iff h).mp (spherical_lines h sF _) i j hi hj hij
  have e4 : gv (g.prP Q) i = gv (g.prP Q) j := (spherical_iff h).mp (spherical_lines h sQ _) i j hi hj hij
  have e5 : gv (g.p2rP F) i = gv (g.p2rP F) j := (spherical_iff h).mp (spherical_lines h sF _) i j hi hj hij
  unfold Eom.rhs
  rw [gv_tab hi, gv_tab hj, a1, a2, a3, b1, b2, b3, z2.2 i hi, z2.2 j hj, hc, e1, e2, e3, e4, e5]

theorem spherical_rho {F Q : List CR} (hF : F.length = g.d.total) (hFf : AllFin F) (sF : Spherical g.d F) (sQ : Spherical g.d Q) :
    Spherical g.d (e.rhoP g F Q) := by
  rw [spherical_iff h]
  intro i j hi hj hij
  obtain ⟨a1, a2, a3⟩ := spherical_angular h hnm sF hF hFf hi
  obtain ⟨b1, b2, b3⟩ := spherical_angular h hnm sF hF hFf hj
  have hc := coef_nospin h he ho h0 h1 h2 ha hi hj hij
  have e1 := (spherical_iff h).mp sF i j hi hj hij
  have e2 := (spherical_iff h).mp sQ i j hi hj hij
  have e3 : gv (g.prP F) i = gv (g.prP F) j := (spherical_iff h).mp (spherical_lines h sF _) i j hi hj hij
  unfold Eom.rhoP
  rw [gv_tab hi, gv_tab hj, a1, a3, b1, b3, hc, e1, e2, e3]

theorem sym_spherical : Sym e g (ι := Unit) (fun _ => True) fun v => Spherical g.d (v ()) := by
  refine ⟨?_, ?_, ?_⟩
  · intro u w c a b
    rw [spherical_iff h] at a b ⊢
    intro i j hi hj hij
    rw [Eom.ax_gv hi, Eom.ax_gv hj, a i j hi hj hij, b i j hi hj hij]
  · intro u hl hf a
    beta_reduce
    rw [spherical_filt h a (hl ()) (hf () trivial)]
    exact a
  · intro u w l1 l2 f1 f2 f3 a b
    exact spherical_rhs h he hnm ho h0 h1 h2 ha (l1 ()) (f1 () trivial) a b

/-- C95: around a hole that does not rotate, a spherically symmetric state is still spherically symmetric after any number of steps, for
as long as the evolution stays finite, and so is its energy density, as the code computes it. -/
theorem C95_spherical_symmetry (J : ℕ → Junk (Cx CR)) {f p : Field CR} (hf : f.Sized (P.nx * P.nlat * P.nphi))
    (hp : p.Sized (P.nx * P.nlat * P.nphi)) (sF : Spherical g.d f.n) (sQ : Spherical g.d p.n) (N : ℕ) (hfin : StaysFinite g e f p N) :
    ∃ a F Q, evolve g J e f p N = .ok (a, F, Q) ∧ Spherical g.d F.n ∧ Spherical g.d Q.n ∧
      ∀ J' rho, rho.length = P.nx * P.nlat * P.nphi → ∃ a' rho', a.set_rho g J' F.n Q.n rho = .ok (a', rho') ∧ Spherical g.d rho' := by
  have ht := h.setup.total
  obtain ⟨s, F, Q, a1, a2, a3, a4, a5, a6⟩ := evolve_eq h.setup he J hf hp N
  obtain ⟨_, _, _, _, _, _, _, hdt⟩ := he.par h.setup h.phys
  have hE := fun j hj => hfin.evoP h.setup he hf hp j hj
  have key := (sym_spherical h he hnm ho h0 h1 h2 ha).evo hdt (F := fun _ => f.n) (Q := fun _ => p.n) (fun _ => hf.1.trans ht.symm)
    (fun _ => hp.1.trans ht.symm) sF sQ N (fun _ _ => hE)
  rw [← a5, ← a6] at key
  have hFf : AllFin F.n := by rw [a5]; exact (hE N le_rfl).1
  refine ⟨_, F, Q, a1, key.1, key.2, fun J' rho hr => ?_⟩
  refine ⟨_, _, Eom.set_rho_eq h.setup.wf (a2.wf h.setup) J' (a3.1.trans ht.symm) (a4.1.trans ht.symm) (hr.trans ht.symm), ?_⟩
  exact spherical_rho h a2 hnm ho h0 h1 h2 ha (a3.1.trans ht.symm) hFf key.1 key.2

end nospin

/-- C95: the angular filter does nothing to a finite spherically symmetric array, whatever the spin of the hole. -/
theorem C95_filter_neutral (h : Exact E P g q x A) (J : Junk (Cx CR)) {v : List CR} (hv : v.length = P.nx * P.nlat * P.nphi) (hf : AllFin v)
    (hs : Spherical g.d v) : g.filter J v = .ok v := by
  have hv' := hv.trans h.setup.total.symm
  rw [h.setup.wf.filter_eq J hv', spherical_filt h hs hv' hf]

end SFK
