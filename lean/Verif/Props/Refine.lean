import Verif.Spec.Refine
import Verif.Props.TimeOrder
import Verif.Props.GridOps
import Mathlib.Analysis.Calculus.MeanValue
/-
C83: refining the time step on a fixed grid.
-/
namespace SFK
open Scalar CR Kerr

variable {E : Env CR} {P : ParamRec CR} {g : Grid CR} {q : Phys} {x : ℕ → ℝ} {A : ℕ → ℕ → ℕ → ℝ} {e : Eom CR}

theorem upperIx_lt {c : Bool} {n : ℕ} (h : 2 ≤ n) : upperIx c n < n := by unfold upperIx; split <;> omega

theorem radPt_upper {c : Bool} {n : ℕ} (h : 2 ≤ n) (lo up : ℝ) : radPt c n lo up (upperIx c n) = up := by
  have hn1 : ((n : ℝ) - 1) ≠ 0 := by
    have : (2 : ℝ) ≤ n := by exact_mod_cast h
    linarith
  have hcast : ((n - 1 : ℕ) : ℝ) = (n : ℝ) - 1 := by push_cast [show 1 ≤ n by omega]; ring
  unfold radPt upperIx
  cases c
  · simp only [if_false, Bool.false_eq_true]
    rw [hcast, mul_div_cancel₀ _ hn1]
    ring
  · simp only [if_true]
    unfold chebPt
    simp
    ring

/-- the filter on one sphere -/
theorem Exact.filt_shell (h : Exact E P g q x A) {ix : ℕ} (hx : ix < P.nx) {v : List CR} {c : ℕ → ℕ → ℂ} (hv : OnShell P g x ix v c) :
    OnShell P g x ix (g.filtP v) fun l m => (filtD P.nl P.nm l m : ℂ) * c l m := by
  have hw := h.setup.wf
  have hlm : g.sphere.lmax = P.nl := by rw [hw.lmax, h.setup.dims]
  have hmm : g.sphere.mmax = P.nm := by rw [hw.mmax, h.setup.dims]
  have hnla : g.sphere.nlat = P.nlat := by rw [hw.nlat, h.setup.dims]
  have hnph : g.sphere.nphi = P.nphi := by rw [hw.nphi, h.setup.dims]
  have hspos : ∀ it ip, it < P.nlat → ip < P.nphi → g.d.pos2 it ip = spos g.d.contig P.nlat P.nphi it ip := by
    intro it ip a b
    rw [pos2_eq_spos, h.setup.dims]
  have hsam : Samples g.d.contig g.sphere.nlat g.sphere.nphi x (g.d.shellOf v ix) (fieldR g.sphere.lmax g.sphere.mmax c) := by
    refine ⟨by rw [hnla, hnph, Dims.shellOf_length]; unfold Dims.shell; rw [h.nlat, h.nphi], fun it ip a b => ?_⟩
    rw [hnla] at a
    rw [hnph] at b
    rw [hnla, hnph, ← hspos it ip a b, hlm, hmm, ← hv.2 it ip a b, ← hw.ok.indx2 (by rw [h.nlat]; exact a) (by rw [h.nphi]; exact b)]
    exact hw.ok.at2_mk2 (by rw [h.nlat]; exact a) (by rw [h.nphi]; exact b)
  have hm := h.math
  have hr := samples_rep hw.sph hm (by rw [hlm]; exact hv.1) hsam
  have hs := rep_samples hw.sph hm (filtP_rep hw.sph (hm.roundTrip hw.sph.api) hr)
  refine ⟨fun l hl => by simp [hv.1 l hl], fun it ip a b => ?_⟩
  have hin : g.d.InR ix it ip := ⟨by rw [h.nx]; exact hx, by rw [h.nlat]; exact a, by rw [h.nphi]; exact b⟩
  have := hs.2 it ip (by rw [hnla]; exact a) (by rw [hnph]; exact b)
  rw [hnla, hnph, ← hspos it ip a b, hlm, hmm] at this
  unfold Grid.filtP
  rw [hw.ok.at3_ofShells _ hin]
  unfold Dims.at2
  rw [hw.ok.indx2 hin.2.1 hin.2.2, this]
  congr 2
  funext l m
  unfold filtD damp
  split <;> simp

section infinity
variable (h : Exact E P g q x A) (he : Eom.Of g P e) (ho : q.Ok) (hup : q.up = q.L) (hfr : q.Free)
include h he ho hup hfr

/-- on the sphere at infinity the second radial derivative the grid supplies is zero -/
theorem inf_p2r {F : List CR} {y : ℕ → ℝ} (hF : IsF g.d.total F y) {i : ℕ} (hi : i < g.d.total) (hx : g.d.dX i = upperIx E.useCheb P.nx) :
    gv (g.p2rP F) i = fin 0 := by
  have hw := h.setup.wf
  obtain ⟨k1, k2⟩ := g.d.dec3 hi
  obtain ⟨⟨D, a, _⟩, ⟨D2, a2, _⟩⟩ := h.linR_der
  have hp : g.radial.ptV (g.d.dX i) = fin q.L := by
    rw [h.rad, hx]
    refine (radialOf_pt h.setup.sizes.two.1 h.setup.sizes.two.2 q.lo q.up (upperIx_lt h.setup.sizes.two.1)).trans ?_
    rw [radPt_upper h.setup.sizes.two.1, hup]
  have hcl : g.cl = fin q.L := by rw [h.setup.cl, h.phys.L]
  have hl : IsF g.d.nx (g.d.lineOf F (g.d.dT i) (g.d.dP i)) fun ix => y (g.d.pos3 ix (g.d.dT i) (g.d.dP i)) := by
    refine ⟨by simp, fun ix hix => ?_⟩
    have hr : g.d.InR ix (g.d.dT i) (g.d.dP i) := ⟨hix, k1.2.1, k1.2.2⟩
    unfold Dims.lineOf
    rw [gv_tab hix, hw.ok.at3_eq _ hr]
    exact hF.2 _ (g.d.pos3_lt hr)
  have : gv (g.p2rP F) i = gv (g.op2rP (g.d.lineOf F (g.d.dT i) (g.d.dP i))) (g.d.dX i) := by
    have := hw.ok.at3_ofLines (fun it ip => g.op2rP (g.d.lineOf F it ip)) k1
    rw [hw.ok.at3_eq _ k1, k2] at this
    exact this
  rw [this]
  unfold Grid.op2rP
  rw [gv_tab k1.1, (a _ _ hl).2 _ k1.1, (a2 _ _ hl).2 _ k1.1]
  unfold Grid.dRV Grid.d2RV
  rw [hp, hcl]
  simp [h.L0]

/-- on the sphere at infinity the time derivative of `p` is zero -/
theorem inf_rhs {F Q : List CR} (hF : F.length = g.d.total) (hFf : AllFin F) {i : ℕ} (hi : i < g.d.total)
    (hx : g.d.dX i = upperIx E.useCheb P.nx) {r : ℝ} (hr : gv (e.rhs g F Q) i = fin r) : r = 0 := by
  obtain ⟨y, hy⟩ := hFf.isF hF
  have hw := h.setup.wf
  obtain ⟨k1, k2⟩ := g.d.dec3 hi
  have hx' : upperIx E.useCheb P.nx < P.nx := upperIx_lt h.setup.sizes.two.1
  have ht : g.d.dT i < P.nlat := by rw [← h.nlat]; exact k1.2.1
  have hp : g.d.dP i < P.nphi := by rw [← h.nphi]; exact k1.2.2
  have hco := h.setup.coords h.phys h.env hx' ht hp
  rw [radPt_upper h.setup.sizes.two.1] at hco
  have hc := (he.coef_real h.setup h.phys ho hx' ht hp hco).2 hup
  have hc' : gv e.coef i = (coefU q.M q.a (Real.arccos (x (g.d.dT i))) 0).map fin := by
    rw [← hc, ← hx]
    unfold Dims.at3
    rw [hw.ok.indx3 k1, k2]
  obtain ⟨q1, q2, q3, q4, q5, q6, q7, _⟩ := he.par h.setup h.phys
  rw [hfr.km1] at q1; rw [hfr.k1] at q3; rw [hfr.k2] at q4
  rw [hfr.V2] at q5; rw [hfr.V3] at q6; rw [hfr.V4] at q7
  unfold Eom.rhs at hr
  rw [gv_tab hi, hc', inf_p2r h he ho hup hfr hy hi hx] at hr
  obtain ⟨cc, kp, ik, vp, f', p', r', vr', rr', ph', rph', X', lap', ⟨c1, c2, c3, c4, c5, c6, c7, c8, c9, c10, c11, c12⟩, ⟨m1, m2, m3⟩,
      ⟨v1, v2, v3, v4, v5, v6, v7, v8, v9⟩, hr⟩ := pk_fin hr
  rw [v9] at m1 m2 m3
  have hkp : kp = 0 := by
    unfold Eom.kprime at m1
    rw [q1, q3, q4] at m1
    obtain ⟨a, b, m4, m5, rfl⟩ := add_fin m1
    obtain ⟨a', b', m6, m7, rfl⟩ := mul_fin m5
    obtain ⟨a'', b'', m8, m9, rfl⟩ := add_fin m4
    obtain ⟨n, dd, m10, m11, hd, rfl⟩ := div_fin m8
    rw [fin_neg, fin_inj] at m10
    rw [fin_inj] at m6 m9
    rw [← m6, ← m9, ← m10]
    simp
  have hvp : vp = 0 := by
    unfold Eom.vprime at m3
    rw [m2, q5, q6, q7] at m3
    simp only [fin_ofNat', fin_mul, fin_pown, fin_add, fin_div _ _ (two_ne_zero (α := ℝ)), fin_div _ _ (show (6:ℝ) ≠ 0 by norm_num), fin_inj] at m3
    rw [← m3]
    simp
  simp only [Coef.map, coefU, fin_inj] at c1 c2 c3 c5 c6
  rw [fin_inj] at v4
  rw [hr, hkp, hvp, ← c1, ← c2, ← c3, ← c5, ← c6, ← v4]
  simp

/-- one Runge-Kutta step on the sphere at infinity, when its result is finite -/
theorem inf_step {F Q : List CR} (hF : F.length = g.d.total) (hQ : Q.length = g.d.total)
    (h1 : AllFin (e.stepF g F Q).1) (h2 : AllFin (e.stepF g F Q).2) {i : ℕ} (hi : i < g.d.total)
    (hx : g.d.dX i = upperIx E.useCheb P.nx) : ∃ y z : ℝ, gv F i = fin y ∧ gv Q i = fin z ∧
      gv (e.stepF g F Q).1 i = fin (y + q.dt * z) ∧ gv (e.stepF g F Q).2 i = fin z := by
  obtain ⟨_, _, _, _, _, _, _, hdt⟩ := he.par h.setup h.phys
  obtain ⟨⟨a1, a2, a3⟩, ⟨b1, b2, b3⟩, ⟨c1, c2, c3⟩, d1, d2, d3⟩ := step_fin hdt hF hQ h1 h2
  have hc : (lit (1/2) * e.dt : CR) = fin (((1/2 : ℚ) : ℝ) * q.dt) := by rw [hdt, fin_lit, fin_mul]
  have h6 : (e.dt / 6 : CR) = fin (q.dt / 6) := by rw [hdt, fin_ofNat', fin_div _ _ (by norm_num)]
  have h3 : (e.dt / 3 : CR) = fin (q.dt / 3) := by rw [hdt, fin_ofNat', fin_div _ _ (by norm_num)]
  obtain ⟨y, hy⟩ := (allFin_iff hF).mp a1 i hi
  obtain ⟨z, hz⟩ := (allFin_iff hQ).mp a2 i hi
  have zr : ∀ F' Q' : List CR, F'.length = g.d.total → AllFin F' → AllFin (e.rhs g F' Q') → gv (e.rhs g F' Q') i = fin 0 := by
    intro F' Q' l f1 f2
    obtain ⟨r, hr⟩ := (allFin_iff (by simp)).mp f2 i hi
    rw [hr, inf_rhs h he ho hup hfr l f1 hi hx hr]
  have r1 := zr _ _ hF a1 a3
  have r2 := zr _ _ (by simp) b1 b3
  have r3 := zr _ _ (by simp) c1 c3
  have r4 := zr _ _ (by simp) d1 d3
  have p2 : gv (e.L2 g F Q).2 i = fin z := by
    unfold Eom.L2
    rw [Eom.ax_gv hi, hz, r1, hc, fin_mul, fin_add]; simp
  have p3 : gv (e.L3 g F Q).2 i = fin z := by
    unfold Eom.L3
    rw [Eom.ax_gv hi, hz, r2, hc, fin_mul, fin_add]; simp
  have p4 : gv (e.L4 g F Q).2 i = fin z := by
    unfold Eom.L4
    rw [Eom.ax_gv hi, hz, r3, hdt, fin_mul, fin_add]; simp
  refine ⟨y, z, hy, hz, ?_, ?_⟩
  · unfold Eom.stepF
    rw [Eom.ax_gv hi, Eom.ax_gv hi, Eom.ax_gv hi, Eom.ax_gv hi, hy, hz, p2, p3, p4, h6, h3]
    simp only [fin_mul, fin_add, fin_inj]
    ring
  · unfold Eom.stepF
    rw [Eom.ax_gv hi, Eom.ax_gv hi, Eom.ax_gv hi, Eom.ax_gv hi, hz, r1, r2, r3, r4, h6, h3]
    simp only [fin_mul, fin_add, fin_inj]
    ring

/-- the state at infinity after any number of steps -/
theorem inf_evo {F Q : List CR} (hF : F.length = g.d.total) (hQ : Q.length = g.d.total) {c d : ℕ → ℕ → ℂ}
    (hc : OnShell P g x (upperIx E.useCheb P.nx) F c) (hd : OnShell P g x (upperIx E.useCheb P.nx) Q d) (N : ℕ)
    (hfin : ∀ j, j ≤ N → AllFin (evoP e g F Q j).1 ∧ AllFin (evoP e g F Q j).2) :
    OnShell P g x (upperIx E.useCheb P.nx) (evoP e g F Q N).1 (fun l m => ((filtD P.nl P.nm l m ^ N : ℝ) : ℂ) * (c l m + ((N * q.dt : ℝ) : ℂ) * d l m)) ∧
    OnShell P g x (upperIx E.useCheb P.nx) (evoP e g F Q N).2 (fun l m => ((filtD P.nl P.nm l m ^ N : ℝ) : ℂ) * d l m) := by
  induction N with
  | zero => simpa using ⟨hc, hd⟩
  | succ N ih =>
    obtain ⟨i1, i2⟩ := ih fun j hj => hfin j (by omega)
    have hw := h.setup.wf
    have hx' : upperIx E.useCheb P.nx < P.nx := upperIx_lt h.setup.sizes.two.1
    have f1 := h.filt_shell hx' i1
    have f2 := h.filt_shell hx' i2
    obtain ⟨j1, j2⟩ := hfin (N + 1) (le_refl _)
    have key : ∀ it ip, it < P.nlat → ip < P.nphi → ∃ y z : ℝ,
        g.d.at3 (g.filtP (evoP e g F Q N).1) (upperIx E.useCheb P.nx) it ip = fin y ∧
        g.d.at3 (g.filtP (evoP e g F Q N).2) (upperIx E.useCheb P.nx) it ip = fin z ∧
        g.d.at3 (evoP e g F Q (N + 1)).1 (upperIx E.useCheb P.nx) it ip = fin (y + q.dt * z) ∧
        g.d.at3 (evoP e g F Q (N + 1)).2 (upperIx E.useCheb P.nx) it ip = fin z := by
      intro it ip a b
      have hin : g.d.InR (upperIx E.useCheb P.nx) it ip := ⟨by rw [h.nx]; exact hx', by rw [h.nlat]; exact a, by rw [h.nphi]; exact b⟩
      simp only [hw.ok.at3_eq _ hin]
      exact inf_step h he ho hup hfr (by simp) (by simp) j1 j2 (g.d.pos3_lt hin) (g.d.dX_pos3 hin)
    refine ⟨⟨fun l hl => ?_, fun it ip a b => ?_⟩, fun l hl => ?_, fun it ip a b => ?_⟩
    · rw [Complex.im_ofReal_mul, Complex.add_im, Complex.im_ofReal_mul, hc.1 l hl, hd.1 l hl]
      simp
    · obtain ⟨y, z, k1, k2, k3, k4⟩ := key it ip a b
      rw [f1.2 it ip a b, fin_inj] at k1
      rw [f2.2 it ip a b, fin_inj] at k2
      rw [k3, ← k1, ← k2, fin_inj]
      have := fieldR_comb P.nl P.nm 1 q.dt (fun l m => (filtD P.nl P.nm l m : ℂ) * (((filtD P.nl P.nm l m ^ N : ℝ) : ℂ) * (c l m + ((N * q.dt : ℝ) : ℂ) * d l m)))
        (fun l m => (filtD P.nl P.nm l m : ℂ) * (((filtD P.nl P.nm l m ^ N : ℝ) : ℂ) * d l m)) (Real.arccos (x it)) (phiN P.nphi ip)
      rw [one_mul] at this
      rw [← this]
      congr 1
      funext l m
      push_cast
      ring
    · rw [Complex.im_ofReal_mul, hd.1 l hl, mul_zero]
    · obtain ⟨y, z, k1, k2, k3, k4⟩ := key it ip a b
      rw [f2.2 it ip a b, fin_inj] at k2
      rw [k4, ← k2, fin_inj]
      congr 1
      funext l m
      push_cast
      ring

/-- C83, at infinity, for a free massless field: after `N` steps of size `dt` that stay finite, each harmonic coefficient of the field is
that of the exact solution of the discretised equation, `c + (N dt) d` (`C83_solution_at_infinity`), times `D^N`, where `D` is the factor
of the angular filter; so the step sequence is exact for the coefficients the filter leaves alone (degree 0 and the top degree and order)
for every step size. -/
theorem C83_infinity_partial (J : ℕ → Junk (Cx CR)) {f p : Field CR} (hf : f.Sized (P.nx * P.nlat * P.nphi))
    (hp : p.Sized (P.nx * P.nlat * P.nphi)) {c d : ℕ → ℕ → ℂ} (hc : OnShell P g x (upperIx E.useCheb P.nx) f.n c)
    (hd : OnShell P g x (upperIx E.useCheb P.nx) p.n d) (N : ℕ) (hfin : StaysFinite g e f p N) :
    ∃ a F Q, evolve g J e f p N = .ok (a, F, Q) ∧
      OnShell P g x (upperIx E.useCheb P.nx) F.n (fun l m => ((filtD P.nl P.nm l m ^ N : ℝ) : ℂ) * (c l m + ((N * q.dt : ℝ) : ℂ) * d l m)) ∧
      OnShell P g x (upperIx E.useCheb P.nx) Q.n (fun l m => ((filtD P.nl P.nm l m ^ N : ℝ) : ℂ) * d l m) ∧
      filtD P.nl P.nm 0 0 = 1 ∧ (∀ m, filtD P.nl P.nm P.nl m = 1) ∧ ∀ l, filtD P.nl P.nm l P.nm = 1 := by
  obtain ⟨s, F, Q, a1, _, _, _, a5, a6⟩ := evolve_eq h.setup he J hf hp N
  have ht := h.setup.total
  have key := inf_evo h he ho hup hfr (hf.1.trans ht.symm) (hp.1.trans ht.symm) hc hd N (fun j hj => hfin.evoP h.setup he hf hp j hj)
  refine ⟨_, F, Q, a1, by rw [a5]; exact key.1, by rw [a6]; exact key.2, ?_, ?_, ?_⟩
  · unfold filtD; simp
  · intro m; unfold filtD; simp
  · intro l; unfold filtD; simp

omit he in
/-- C83: the exact solution of the equation `set_k` defines, for a free massless field, on the sphere at infinity: `p` does not change
and `f` grows linearly. -/
theorem C83_solution_at_infinity {T : ℝ} (hT : 0 ≤ T) {u : ℝ → State (P.nx * P.nlat * P.nphi)} (hu : SolvesOn g P u T)
    {c d : ℕ → ℕ → ℂ} (hc : OnShell P g x (upperIx E.useCheb P.nx) (arr (u 0).1) c)
    (hd : OnShell P g x (upperIx E.useCheb P.nx) (arr (u 0).2) d) :
    OnShell P g x (upperIx E.useCheb P.nx) (arr (u T).1) (fun l m => c l m + (T : ℂ) * d l m) ∧
      OnShell P g x (upperIx E.useCheb P.nx) (arr (u T).2) d := by
  obtain ⟨e, _, he⟩ := Eom.Of.exists h.setup
  have ht := h.setup.total
  have hw := h.setup.wf
  have hx' : upperIx E.useCheb P.nx < P.nx := upperIx_lt h.setup.sizes.two.1
  have arr_gv : ∀ (y : Fin (P.nx * P.nlat * P.nphi) → ℝ) (i : Fin (P.nx * P.nlat * P.nphi)), gv (arr y) i.1 = fin (y i) := by
    intro y i
    have := (arr_isF y).2 i.1 i.2
    simpa [extF] using this
  -- the derivative at a point of the sphere
  have der : ∀ t ∈ Set.Icc 0 T, ∀ i : Fin (P.nx * P.nlat * P.nphi), g.d.dX i.1 = upperIx E.useCheb P.nx →
      HasDerivAt (fun t => (u t).1 i) ((u t).2 i) t ∧ HasDerivAt (fun t => (u t).2 i) 0 t := by
    intro t hmem i hi
    obtain ⟨v, hv, hs⟩ := hu t hmem
    obtain ⟨s1, s2, s3, s4, s5, s6, s7⟩ := (he.wf h.setup).scr
    have hl : ∀ y : Fin (P.nx * P.nlat * P.nphi) → ℝ, (arr y).length = g.d.total := fun y => by simp [arr, ht]
    obtain ⟨e', h1⟩ := hs e he (fun _ _ => ⟨fin 0, fin 0⟩) e.scr (arr (u t).1) (arr (u t).2) (by
      rw [hl]; exact ⟨s1, s2, s3, s4, s5, s6, s7⟩) rfl ((hl _).trans (hl _).symm)
    have h3 := h1.symm.trans (Eom.set_k_eq hw (he.wf h.setup) (fun _ _ => ⟨fin 0, fin 0⟩) (hl _) (hl _) (hl _) (hl _))
    injection h3 with h3
    injection h3 with _ h3
    injection h3 with h4 h5
    have v1 : v.1 i = (u t).2 i := by
      have := congrArg (fun l => gv l i.1) h4
      simpa only [arr_gv, fin_inj] using this
    have v2 : v.2 i = 0 := by
      have := congrArg (fun l => gv l i.1) h5
      simp only [arr_gv] at this
      exact inf_rhs h he ho hup hfr (by simp [arr, ht]) (arr_isF (u t).1).allFin (by rw [ht]; exact i.2) hi this.symm
    have d1 := hasDerivAt_pi.mp hv.fst i
    have d2 := hasDerivAt_pi.mp hv.snd i
    rw [v1] at d1
    rw [v2] at d2
    exact ⟨d1, d2⟩
  have mem : T ∈ Set.Icc 0 T := ⟨hT, le_rfl⟩
  have c2 : ∀ i : Fin (P.nx * P.nlat * P.nphi), g.d.dX i.1 = upperIx E.useCheb P.nx → (u T).2 i = (u 0).2 i := by
    intro i hi
    exact constant_of_has_deriv_right_zero (f := fun t => (u t).2 i) (fun t hm => (der t hm i hi).2.continuousAt.continuousWithinAt)
      (fun t hm => (der t ⟨hm.1, hm.2.le⟩ i hi).2.hasDerivWithinAt) T mem
  have c1 : ∀ i : Fin (P.nx * P.nlat * P.nphi), g.d.dX i.1 = upperIx E.useCheb P.nx → (u T).1 i = (u 0).1 i + T * (u 0).2 i := by
    intro i hi
    have dd : ∀ t ∈ Set.Icc 0 T, HasDerivAt (fun t => (u t).1 i - t * (u t).2 i) 0 t := by
      intro t hm
      have := (der t hm i hi).1.sub ((hasDerivAt_id t).mul (der t hm i hi).2)
      have e0 : (u t).2 i - (1 * (u t).2 i + id t * 0) = 0 := by simp
      rw [e0] at this
      exact this
    have : (u T).1 i - T * (u T).2 i = (u 0).1 i - 0 * (u 0).2 i := constant_of_has_deriv_right_zero (f := fun t => (u t).1 i - t * (u t).2 i) (fun t hm => (dd t hm).continuousAt.continuousWithinAt)
      (fun t hm => (dd t ⟨hm.1, hm.2.le⟩).hasDerivWithinAt) T mem
    rw [c2 i hi] at this
    linarith
  have pos : ∀ it ip, it < P.nlat → ip < P.nphi → ∃ i : Fin (P.nx * P.nlat * P.nphi), g.d.dX i.1 = upperIx E.useCheb P.nx ∧
      ∀ y : Fin (P.nx * P.nlat * P.nphi) → ℝ, g.d.at3 (arr y) (upperIx E.useCheb P.nx) it ip = fin (y i) := by
    intro it ip a b
    have hin : g.d.InR (upperIx E.useCheb P.nx) it ip := ⟨by rw [h.nx]; exact hx', by rw [h.nlat]; exact a, by rw [h.nphi]; exact b⟩
    refine ⟨⟨g.d.pos3 (upperIx E.useCheb P.nx) it ip, by rw [← ht]; exact g.d.pos3_lt hin⟩, g.d.dX_pos3 hin, fun y => ?_⟩
    rw [hw.ok.at3_eq _ hin]
    exact arr_gv y ⟨_, by rw [← ht]; exact g.d.pos3_lt hin⟩
  refine ⟨⟨fun l hl => ?_, fun it ip a b => ?_⟩, hd.1, fun it ip a b => ?_⟩
  · rw [Complex.add_im, Complex.im_ofReal_mul, hc.1 l hl, hd.1 l hl]; simp
  · obtain ⟨i, hi, hy⟩ := pos it ip a b
    have e1 := hc.2 it ip a b
    have e2 := hd.2 it ip a b
    rw [hy, fin_inj] at e1 e2
    rw [hy, c1 i hi, e1, e2, fin_inj]
    have := fieldR_comb P.nl P.nm 1 T c d (Real.arccos (x it)) (phiN P.nphi ip)
    rw [one_mul] at this
    rw [← this]
    congr 1
    funext l m
    push_cast
    ring
  · obtain ⟨i, hi, hy⟩ := pos it ip a b
    have e2 := hd.2 it ip a b
    rw [hy] at e2
    rw [hy, c2 i hi, e2]

end infinity

theorem filtD_lt_one {nl nm l m : ℕ} (h0 : 0 < l) (hl : l < nl) (hm : m < nm) : 0 < filtD nl nm l m ∧ filtD nl nm l m < 1 := by
  unfold filtD
  rw [if_pos ⟨hl, hm⟩]
  refine ⟨mul_pos (Real.exp_pos _) (Real.exp_pos _), ?_⟩
  have a : Real.exp (-40 * ((l : ℝ) / nl) ^ 16) < 1 := by
    rw [Real.exp_lt_one_iff]
    have h1 : (0 : ℝ) < l := by exact_mod_cast h0
    have h2 : (0 : ℝ) < nl := by exact_mod_cast (by omega : 0 < nl)
    have : (0 : ℝ) < ((l : ℝ) / nl) ^ 16 := by positivity
    linarith
  have b : Real.exp (-40 * ((m : ℝ) / nl) ^ 16) ≤ 1 := by
    rw [Real.exp_le_one_iff]
    have : (0 : ℝ) ≤ ((m : ℝ) / nl) ^ 16 := by positivity
    linarith
  calc _ ≤ Real.exp (-40 * ((l : ℝ) / nl) ^ 16) * 1 := mul_le_mul_of_nonneg_left b (Real.exp_pos _).le
    _ < 1 := by rw [mul_one]; exact a

/-- C83 fails: evolving to a fixed time `T` with `N` steps of size `T/N`, the coefficients of degree `0 < l < nl` and order `m < nm` on
the sphere at infinity become arbitrarily small compared to those `c + T d` and `d` of the exact solution of the discretised equation
when `N` grows: refining the time step leads away from the solution, because the filter acts once per step whatever the step size. -/
theorem C83_refinement_fails (h : Exact E P g q x A) (ho : q.Ok) (hup : q.up = q.L) (hfr : q.Free) {T ε : ℝ} (hε : 0 < ε) :
    ∃ N₀ : ℕ, ∀ N : ℕ, N₀ ≤ N → 0 < N → ∀ (e : Eom CR) (J : ℕ → Junk (Cx CR)) (f p : Field CR) (c d : ℕ → ℕ → ℂ),
      Eom.Of g { P with dt := fin (T / N) } e → f.Sized (P.nx * P.nlat * P.nphi) → p.Sized (P.nx * P.nlat * P.nphi) →
      OnShell P g x (upperIx E.useCheb P.nx) f.n c → OnShell P g x (upperIx E.useCheb P.nx) p.n d → StaysFinite g e f p N →
      ∃ a F Q C D, evolve g J e f p N = .ok (a, F, Q) ∧
        OnShell P g x (upperIx E.useCheb P.nx) F.n C ∧ OnShell P g x (upperIx E.useCheb P.nx) Q.n D ∧
        ∀ l m, 0 < l → l < P.nl → m < P.nm → ‖C l m‖ ≤ ε * ‖c l m + (T : ℂ) * d l m‖ ∧ ‖D l m‖ ≤ ε * ‖d l m‖ := by
  -- a uniform number of steps
  have unif : ∃ N₀ : ℕ, ∀ N, N₀ ≤ N → ∀ l m, 0 < l → l < P.nl → m < P.nm → filtD P.nl P.nm l m ^ N ≤ ε := by
    have one : ∀ l m, ∃ N₀ : ℕ, 0 < l → l < P.nl → m < P.nm → ∀ N, N₀ ≤ N → filtD P.nl P.nm l m ^ N ≤ ε := by
      intro l m
      by_cases hh : 0 < l ∧ l < P.nl ∧ m < P.nm
      · obtain ⟨a, b⟩ := filtD_lt_one hh.1 hh.2.1 hh.2.2
        obtain ⟨n, hn⟩ := exists_pow_lt_of_lt_one hε b
        exact ⟨n, fun _ _ _ N hN => (pow_le_pow_of_le_one a.le b.le hN).trans hn.le⟩
      · exact ⟨0, fun h1 h2 h3 => absurd ⟨h1, h2, h3⟩ hh⟩
    choose n hn using one
    refine ⟨∑ l ∈ Finset.range P.nl, ∑ m ∈ Finset.range P.nm, n l m, fun N hN l m h1 h2 h3 => hn l m h1 h2 h3 N (le_trans ?_ hN)⟩
    have s1 : n l m ≤ ∑ m ∈ Finset.range P.nm, n l m :=
      Finset.single_le_sum (f := fun m => n l m) (fun _ _ => Nat.zero_le _) (Finset.mem_range.mpr h3)
    exact s1.trans (Finset.single_le_sum (f := fun l => ∑ m ∈ Finset.range P.nm, n l m) (fun _ _ => Nat.zero_le _) (Finset.mem_range.mpr h2))
  obtain ⟨N₀, hN⟩ := unif
  refine ⟨N₀, fun N hN0 hpos e J f p c d he hf hp hc hd hfin => ?_⟩
  have h' : Exact E { P with dt := fin (T / N) } g { q with dt := T / N } x A :=
    ⟨⟨⟨h.setup.sized, h.setup.sizes, h.setup.grid⟩, h.setup.orders⟩, h.env, ⟨h.phys.M, h.phys.a, h.phys.L, h.phys.lo, h.phys.up, rfl, h.phys.km1, h.phys.k0, h.phys.k1,
      h.phys.k2, h.phys.V2, h.phys.V3, h.phys.V4⟩, h.lu, h.L0⟩
  obtain ⟨a, F, Q, e1, e2, e3, _⟩ := C83_infinity_partial (q := { q with dt := T / N }) h' he ⟨ho.M_pos, ho.spin, ho.noRound, ho.L_pos⟩ hup
    ⟨hfr.km1, hfr.k0, hfr.k1, hfr.k2, hfr.V2, hfr.V3, hfr.V4⟩ J hf hp hc hd N hfin
  refine ⟨a, F, Q, fun l m => ((filtD P.nl P.nm l m ^ N : ℝ) : ℂ) * (c l m + ((N * (T / N) : ℝ) : ℂ) * d l m),
    fun l m => ((filtD P.nl P.nm l m ^ N : ℝ) : ℂ) * d l m, e1, e2, e3, fun l m h1 h2 h3 => ?_⟩
  have hn0 : (N : ℝ) ≠ 0 := by exact_mod_cast hpos.ne'
  have hT : ((N : ℝ) * (T / N)) = T := by field_simp
  have hD : ‖((filtD P.nl P.nm l m ^ N : ℝ) : ℂ)‖ ≤ ε := by
    rw [Complex.norm_real, Real.norm_of_nonneg (pow_nonneg (filtD_lt_one h1 h2 h3).1.le _)]
    exact hN N hN0 l m h1 h2 h3
  dsimp only
  rw [hT, norm_mul, norm_mul]
  exact ⟨mul_le_mul_of_nonneg_right hD (norm_nonneg _), mul_le_mul_of_nonneg_right hD (norm_nonneg _)⟩

/-- The free parameters without the mass term. -/
noncomputable def massless : Phys := { freeQ with V2 := 0 }
noncomputable def masslessP : ParamRec CR := { freeP with V2 := fin 0 }

/-- Non-vacuity: on the demonstration grid, for both radial schemes, for every final time and every number of steps, there is initial data
with a non-zero harmonic `(2,1)` at infinity whose evolution stays finite, and there are solutions of the discretised equation over some
interval. -/
example (contig ndebug useCheb : Bool) : ∃ (E : Env CR) (x : ℕ → ℝ) (A : ℕ → ℕ → ℕ → ℝ) (g : Grid CR), Exact E masslessP g massless x A ∧
    massless.Ok ∧ massless.up = massless.L ∧ massless.Free ∧
    (∀ (T : ℝ) (N : ℕ), ∃ (e : Eom CR) (f p : Field CR) (c d : ℕ → ℕ → ℂ), Eom.Of g { masslessP with dt := fin (T / N) } e ∧
      f.Sized (masslessP.nx * masslessP.nlat * masslessP.nphi) ∧ p.Sized (masslessP.nx * masslessP.nlat * masslessP.nphi) ∧
      OnShell masslessP g x (upperIx E.useCheb masslessP.nx) f.n c ∧ OnShell masslessP g x (upperIx E.useCheb masslessP.nx) p.n d ∧
      StaysFinite g e f p N ∧ c 2 1 + (T : ℂ) * d 2 1 ≠ 0 ∧ 0 < 2 ∧ 2 < masslessP.nl ∧ 1 < masslessP.nm) ∧
    ∃ (T : ℝ) (u : ℝ → State (masslessP.nx * masslessP.nlat * masslessP.nphi)), 0 < T ∧ SolvesOn g masslessP u T ∧ u 0 = (0, fun _ => 1) := by
  obtain ⟨E, x, A, g, e, h1, h2, h3, h4, h5, h6, h7, h8⟩ := free_exact contig ndebug useCheb
  have hX : Exact E masslessP g massless x A := ⟨⟨⟨h1.setup.sized, h1.setup.sizes, h1.setup.grid⟩, h1.setup.orders⟩, h1.env,
    ⟨h1.phys.M, h1.phys.a, h1.phys.L, h1.phys.lo, h1.phys.up, h1.phys.dt, h1.phys.km1, h1.phys.k0, h1.phys.k1, h1.phys.k2, rfl, h1.phys.V3,
      h1.phys.V4⟩, h1.lu, h1.L0⟩
  have ho : massless.Ok := ⟨h3.M_pos, h3.spin, h3.noRound, h3.L_pos⟩
  have hfr : massless.Free := ⟨rfl, h7, rfl, rfl, rfl, rfl, rfl⟩
  have ht := hX.setup.total
  refine ⟨E, x, A, g, hX, ho, rfl, hfr, fun T N => ?_, ?_⟩
  · have h' : Exact E { masslessP with dt := fin (T / N) } g { massless with dt := T / N } x A :=
      ⟨⟨⟨hX.setup.sized, hX.setup.sizes, hX.setup.grid⟩, hX.setup.orders⟩, hX.env, ⟨hX.phys.M, hX.phys.a, hX.phys.L, hX.phys.lo, hX.phys.up, rfl, hX.phys.km1,
        hX.phys.k0, hX.phys.k1, hX.phys.k2, hX.phys.V2, hX.phys.V3, hX.phys.V4⟩, hX.lu, hX.L0⟩
    obtain ⟨e, _, he⟩ := Eom.Of.exists h'.setup
    let w : ℕ → ℝ := fun i => fieldR masslessP.nl masslessP.nm (fun l m => if l = 2 ∧ m = 1 then 1 else 0) (Real.arccos (x (g.d.dT i))) (phiN masslessP.nphi (g.d.dP i))
    obtain ⟨ε, hε, hs⟩ := C74_small_free_fields_stay_finite h' he ⟨ho.M_pos, ho.spin, ho.noRound, ho.L_pos⟩ h4 h5 h6 h7 rfl rfl rfl rfl rfl w
      (fun _ => 0) N
    have gen : ∀ (n : ℕ) (y : ℕ → ℝ), ∃ f : Field CR, f.Sized n ∧ ∀ i, i < n → gv f.n i = fin (y i) := fun n y =>
      ⟨⟨"", tab n fun i => fin (y i), tab n fun i => fin (y i), tab n fun i => fin (y i), tab n fun i => fin (y i), n⟩,
        by simp [Field.Sized], fun i hi => gv_tab hi⟩
    obtain ⟨f, f1, f2⟩ := gen (masslessP.nx * masslessP.nlat * masslessP.nphi) fun i => ε / 2 * w i
    obtain ⟨p, p1, p2⟩ := gen (masslessP.nx * masslessP.nlat * masslessP.nphi) fun i => ε / 2 * 0
    have hx' : upperIx E.useCheb masslessP.nx < masslessP.nx := upperIx_lt hX.setup.sizes.two.1
    have hin : ∀ it ip, it < masslessP.nlat → ip < masslessP.nphi → g.d.InR (upperIx E.useCheb masslessP.nx) it ip := fun it ip a b =>
      ⟨by rw [hX.nx]; exact hx', by rw [hX.nlat]; exact a, by rw [hX.nphi]; exact b⟩
    refine ⟨e, f, p, fun l m => ((ε / 2 : ℝ) : ℂ) * (if l = 2 ∧ m = 1 then 1 else 0), fun l m => ((0 : ℝ) : ℂ) * 0, he, f1, p1,
      ⟨fun l _ => by simp, fun it ip a b => ?_⟩, ⟨fun l _ => by simp, fun it ip a b => ?_⟩,
      hs (ε / 2) (by rw [abs_of_pos (by linarith)]; linarith) f p f1 p1 f2 p2, by simp [hε.ne'], by norm_num, by decide, by decide⟩
    · have hr := hin it ip a b
      rw [hX.setup.wf.ok.at3_eq _ hr, f2 _ (by rw [← ht]; exact g.d.pos3_lt hr), fin_inj, fieldR_smul_fun]
      show ε / 2 * w _ = _
      simp only [w]
      rw [g.d.dT_pos3 hr, g.d.dP_pos3 hr]
    · have hr := hin it ip a b
      rw [hX.setup.wf.ok.at3_eq _ hr, p2 _ (by rw [← ht]; exact g.d.pos3_lt hr), fin_inj, fieldR_smul_fun]
      simp
  · obtain ⟨u, hu0, hu⟩ := C80_solution_exists hX ho h4 h5 h6 (0, fun _ => 1) (fun i => ⟨by norm_num, by
      show massless.kin 0 ≠ 0
      have := h8
      unfold Phys.kin Kerr.kin
      simpa [add_comm, massless] using this⟩)
    obtain ⟨δ, hδ, hb⟩ := Metric.eventually_nhds_iff.mp hu
    refine ⟨δ / 2, u, by linarith, fun t hm => hb ?_, hu0⟩
    rw [Real.dist_eq, sub_zero, abs_of_nonneg hm.1]
    linarith [hm.2]

end SFK
