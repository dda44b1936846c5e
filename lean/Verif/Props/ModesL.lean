import Verif.Lemmas.ModesL
import Verif.Props.Mirror
import Verif.Props.Converge
/-
C106: around a hole that does not rotate the spherical harmonics of a free field evolve independently of each other.
-/
namespace SFK
open Scalar CR Filter Topology

variable {E : Env CR} {P : ParamRec CR} {g : Grid CR} {q : Phys} {x : ℕ → ℝ} {A : ℕ → ℕ → ℕ → ℝ} {e : Eom CR}

theorem oneHarmonic_iff (hw : g.d.Ok) {l m : ℕ} {α β : ℝ} {y : ℕ → ℝ} {v : List CR} (hv : v.length = g.d.total) :
    OneHarmonic g.d x l m α β y v ↔ HarmF g.d (fun it ip => shapeY l m α β (Real.arccos (x it)) (phiN g.d.nphi ip)) y v := by
  constructor
  · intro h
    refine ⟨hv, fun i hi => ?_⟩
    obtain ⟨k1, k2⟩ := g.d.dec3 hi
    have := h _ _ _ k1.1 k1.2.1 k1.2.2
    rw [hw.at3_eq _ k1, k2] at this
    exact this
  · intro h ix it ip a b c
    have hr : g.d.InR ix it ip := ⟨a, b, c⟩
    rw [h.at3 hw hr]
    beta_reduce
    rw [g.d.dX_pos3 hr, g.d.dT_pos3 hr, g.d.dP_pos3 hr]

theorem lapM_real (l m L M : ℕ) : ∃ κ : ℝ, (if l < L ∧ m < M then lapM l m else 1) = (κ : ℂ) := by
  by_cases h : l < L ∧ m < M
  · refine ⟨-((l : ℝ) * (l + 1)), ?_⟩
    rw [if_pos h]
    unfold lapM
    push_cast
    ring
  · exact ⟨1, by rw [if_neg h]; simp⟩

theorem filtM_real (l m L M : ℕ) : ∃ κ : ℝ, (if l < L ∧ m < M then filtM L l m else 1) = (κ : ℂ) := by
  by_cases h : l < L ∧ m < M
  · exact ⟨_, by rw [if_pos h]; rfl⟩
  · exact ⟨1, by rw [if_neg h]; simp⟩

section nospin
variable (h : Exact E P g q x A) (he : Eom.Of g P e) (ho : q.Ok) (h0 : 0 < q.lo) (h1 : q.lo < q.up) (h2 : q.up ≤ q.L) (ha : q.a = 0)
  (hk : q.km1 = 0) (hk1 : q.k1 = 0) (hk2 : q.k2 = 0) (hv : q.V3 = 0) (hv4 : q.V4 = 0)
include h he ho h0 h1 h2 ha hk hk1 hk2 hv hv4

/-- the right-hand side on a single harmonic: the profile of the result depends on the harmonic through the multiplier of the Laplacian only -/
theorem harm_rhs {l : ℕ} (κ : ℝ) (hl : l ≤ P.nl) (y z : ℕ → ℝ) :
    ∃ w : ℕ → ℝ, ∀ m α β F Q, m ≤ l → m ≤ P.nm → (if l < P.nl ∧ m < P.nm then lapM l m else 1) = (κ : ℂ) →
      HarmF g.d (fun it ip => shapeY l m α β (Real.arccos (x it)) (phiN g.d.nphi ip)) y F →
      HarmF g.d (fun it ip => shapeY l m α β (Real.arccos (x it)) (phiN g.d.nphi ip)) z Q → AllFin (e.rhs g F Q) →
      HarmF g.d (fun it ip => shapeY l m α β (Real.arccos (x it)) (phiN g.d.nphi ip)) w (e.rhs g F Q) := by
  have hw := h.setup.wf
  obtain ⟨D1, d1⟩ := harm_lines hw.ok h.linR_opr
  obtain ⟨D2, d2⟩ := harm_lines hw.ok h.linR_op2r
  obtain ⟨c, hc⟩ := coef_radial h he ho h0 h1 h2 ha
  obtain ⟨pr, p2r, ph, lap, fl, o⟩ := h.ops
  refine ⟨fun ix => (c ix).p_p * z ix + (c ix).p_dr_f * D1 y ix + (c ix).p_dr_p * D1 z ix + (c ix).p_dr_dr_f * D2 y ix + (c ix).p_lap_f * (κ * y ix)
    - (c ix).pre * (1 / q.k0 * (q.V2 * y ix)), fun m α β F Q hml hm hκ hF hQ hfin => ⟨by simp, fun i hi => ?_⟩⟩
  have a3 : HarmF g.d _ (D1 y) (g.prP F) := d1 _ _ _ hF
  have a4 : HarmF g.d _ (D1 z) (g.prP Q) := d1 _ _ _ hQ
  have a5 : HarmF g.d _ (D2 y) (g.p2rP F) := d2 _ _ _ hF
  have a9 : HarmF g.d _ (fun ix => κ * y ix) (g.plapP F) := harm_shells h (fun v u hv => lapP_is2 hw.sph h.math hv) hκ hl hml hm α β hF
  have a6 := o.ph.1 _ _ hF
  have a7 := o.pr.1 _ _ a6
  obtain ⟨cc, ⟨c1, c2, c3, c4, c5, c6, c7⟩, hr⟩ := rhs_free h he hk hk1 hk2 hv hv4 hi hfin (hF.2 i hi) (hQ.2 i hi) (a3.2 i hi) (a4.2 i hi) (a5.2 i hi) (a6.2 i hi)
    (a7.2 i hi) (a9.2 i hi)
  obtain ⟨hc1, hc2⟩ := hc i hi
  rw [hc1] at c1 c2 c3 c4 c5 c6 c7
  simp only [Coef.map, fin_inj] at c1 c2 c3 c4 c5 c6 c7
  rw [hr, ← c1, ← c2, ← c3, ← c4, ← c5, ← c6, ← c7, hc2, fin_inj]
  ring

omit he ho h0 h1 h2 ha hk hk1 hk2 hv hv4 in
theorem harm_filt {l : ℕ} (hl : l ≤ P.nl) {ι : Type} {m : ι → ℕ} (hml : ∀ r, m r ≤ l) (hm : ∀ r, m r ≤ P.nm) {μ : ℝ} {ρ : ι → ℝ}
    (hκ : ∀ r, (if l < P.nl ∧ m r < P.nm then filtM P.nl l (m r) else 1) = ((μ * ρ r : ℝ) : ℂ)) {α β : ι → ℝ} {u : ι → List CR} {y : ℕ → ℝ}
    (hu : ∀ r, HarmF g.d (fun it ip => shapeY l (m r) (α r) (β r) (Real.arccos (x it)) (phiN g.d.nphi ip)) y (u r)) (r : ι) :
    HarmF g.d (fun it ip => shapeY l (m r) (ρ r * α r) (ρ r * β r) (Real.arccos (x it)) (phiN g.d.nphi ip)) (fun ix => μ * y ix) (g.filtP (u r)) := by
  have hw := h.setup.wf
  have hlm : g.sphere.lmax = P.nl := by rw [hw.lmax, h.setup.dims]
  refine IsF.congr (harm_shells h (fun v u hv => filtP_is2 hw.sph h.math hv) (by rw [hlm]; exact hκ r) hl (hml r) (hm r) _ _ (hu r)) fun i _ => ?_
  unfold shapeY
  ring

/-- several runs with harmonics of the same degree -/
theorem harm_evo {l : ℕ} (hl : l ≤ P.nl) {ι : Type} {m : ι → ℕ} (hml : ∀ r, m r ≤ l) (hm : ∀ r, m r ≤ P.nm) {κ μ : ℝ} {ρ : ι → ℝ}
    (hκ : ∀ r, (if l < P.nl ∧ m r < P.nm then lapM l (m r) else 1) = (κ : ℂ))
    (hμ : ∀ r, (if l < P.nl ∧ m r < P.nm then filtM P.nl l (m r) else 1) = ((μ * ρ r : ℝ) : ℂ)) (α β : ι → ℝ) {F Q : ι → List CR}
    (hF : ∀ r, (F r).length = g.d.total) (hQ : ∀ r, (Q r).length = g.d.total) {y z : ℕ → ℝ}
    (rF : ∀ r, HarmF g.d (fun it ip => shapeY l (m r) (α r) (β r) (Real.arccos (x it)) (phiN g.d.nphi ip)) y (F r))
    (rQ : ∀ r, HarmF g.d (fun it ip => shapeY l (m r) (α r) (β r) (Real.arccos (x it)) (phiN g.d.nphi ip)) z (Q r)) (N : ℕ)
    (hfin : ∀ r, ∀ j, j ≤ N → AllFin (evoP e g (F r) (Q r) j).1 ∧ AllFin (evoP e g (F r) (Q r) j).2) :
    (∃ y', ∀ r, HarmF g.d (fun it ip => shapeY l (m r) (ρ r ^ N * α r) (ρ r ^ N * β r) (Real.arccos (x it)) (phiN g.d.nphi ip)) y' (evoP e g (F r) (Q r) N).1) ∧
    ∃ z', ∀ r, HarmF g.d (fun it ip => shapeY l (m r) (ρ r ^ N * α r) (ρ r ^ N * β r) (Real.arccos (x it)) (phiN g.d.nphi ip)) z' (evoP e g (F r) (Q r) N).2 := by
  obtain ⟨_, _, _, _, _, _, _, hdt⟩ := he.par h.setup h.phys
  induction N with
  | zero => simpa [evoP] using ⟨⟨y, rF⟩, ⟨z, rQ⟩⟩
  | succ N ih =>
    obtain ⟨⟨y', i1⟩, ⟨z', i2⟩⟩ := ih fun r j hj => hfin r j (by omega)
    have f1 := harm_filt h hl hml hm hμ i1
    have f2 := harm_filt h hl hml hm hμ i2
    have e1 : ∀ r, ρ r ^ (N + 1) * α r = ρ r * (ρ r ^ N * α r) := fun r => by ring
    have e2 : ∀ r, ρ r ^ (N + 1) * β r = ρ r * (ρ r ^ N * β r) := fun r => by ring
    simp only [e1, e2]
    refine Sym.step' (S := fun _ : ι => True) (Rel := fun v => ∃ y, ∀ r, HarmF g.d (fun it ip => shapeY l (m r) (ρ r * (ρ r ^ N * α r)) (ρ r * (ρ r ^ N * β r))
      (Real.arccos (x it)) (phiN g.d.nphi ip)) y (v r)) ?_ ?_ hdt (F := fun r => g.filtP (evoP e g (F r) (Q r) N).1)
      (Q := fun r => g.filtP (evoP e g (F r) (Q r) N).2) (by simp) (by simp) ⟨_, f1⟩ ⟨_, f2⟩ (fun r _ => hfin r (N + 1) le_rfl)
    · rintro u w c ⟨y, a⟩ ⟨z, b⟩
      refine ⟨fun ix => y ix + c * z ix, fun r => ⟨by simp [Eom.ax], fun i hi => ?_⟩⟩
      rw [Eom.ax_gv hi, (a r).2 i hi, (b r).2 i hi, fin_mul, fin_add, fin_inj]
      ring
    · rintro u w _ _ _ _ f3 ⟨y, a⟩ ⟨z, b⟩
      obtain ⟨W, hW⟩ := harm_rhs h he ho h0 h1 h2 ha hk hk1 hk2 hv hv4 κ hl y z
      exact ⟨W, fun r => hW _ _ _ _ _ (hml r) (hm r) (hκ r) (a r) (b r) (f3 r trivial)⟩

/-- the same for the fields of the code -/
theorem harm_run (J : ℕ → Junk (Cx CR)) {l : ℕ} (hl : l ≤ P.nl) {ι : Type} {m : ι → ℕ} (hml : ∀ r, m r ≤ l) (hm : ∀ r, m r ≤ P.nm) {κ μ : ℝ} {ρ : ι → ℝ}
    (hκ : ∀ r, (if l < P.nl ∧ m r < P.nm then lapM l (m r) else 1) = (κ : ℂ))
    (hμ : ∀ r, (if l < P.nl ∧ m r < P.nm then filtM P.nl l (m r) else 1) = ((μ * ρ r : ℝ) : ℂ)) (α β : ι → ℝ) {f p : ι → Field CR}
    (hf : ∀ r, (f r).Sized (P.nx * P.nlat * P.nphi)) (hp : ∀ r, (p r).Sized (P.nx * P.nlat * P.nphi)) (y z : ℕ → ℝ)
    (hF : ∀ r, OneHarmonic g.d x l (m r) (α r) (β r) y (f r).n) (hQ : ∀ r, OneHarmonic g.d x l (m r) (α r) (β r) z (p r).n) (N : ℕ)
    (hfin : ∀ r, StaysFinite g e (f r) (p r) N) :
    ∃ y' z' : ℕ → ℝ, ∀ r, ∃ a F Q, evolve g J e (f r) (p r) N = .ok (a, F, Q) ∧ OneHarmonic g.d x l (m r) (ρ r ^ N * α r) (ρ r ^ N * β r) y' F.n ∧
      OneHarmonic g.d x l (m r) (ρ r ^ N * α r) (ρ r ^ N * β r) z' Q.n := by
  have ht := h.setup.total
  have hok := h.setup.wf.ok
  have lf := fun r => (hf r).1.trans ht.symm
  have lp := fun r => (hp r).1.trans ht.symm
  obtain ⟨⟨y', k1⟩, ⟨z', k2⟩⟩ := harm_evo h he ho h0 h1 h2 ha hk hk1 hk2 hv hv4 hl hml hm hκ hμ α β lf lp
    (fun r => (oneHarmonic_iff hok (lf r)).mp (hF r)) (fun r => (oneHarmonic_iff hok (lp r)).mp (hQ r)) N
    (fun r j hj => (hfin r).evoP h.setup he (hf r) (hp r) j hj)
  refine ⟨y', z', fun r => ?_⟩
  obtain ⟨s, F, Q, a1, a2, a3, a4, a5, a6⟩ := evolve_eq h.setup he J (hf r) (hp r) N
  refine ⟨_, F, Q, a1, (oneHarmonic_iff hok (a3.1.trans ht.symm)).mpr ?_, (oneHarmonic_iff hok (a4.1.trans ht.symm)).mpr ?_⟩
  · rw [a5]; exact k1 r
  · rw [a6]; exact k2 r

/-- C106: a free field around a hole that does not rotate, any family of runs (index `ι`) whose initial fields and velocities are real
harmonics of one degree `l` and order `m`, with the same radial profiles `y`, `z` but arbitrary combinations `α r cos(mφ) + β r sin(mφ)`:
after any number `N` of steps, for as long as these evolutions stay finite, fields and velocities are still those harmonics, with the same
radial profiles for all members of the family.  (With a single member: no other harmonic is excited.) -/
theorem C106_spherical_harmonics (J : ℕ → Junk (Cx CR)) {l m : ℕ} (hl : l ≤ P.nl) (hml : m ≤ l) (hm : m ≤ P.nm) {ι : Type} (α β : ι → ℝ)
    {f p : ι → Field CR} (hf : ∀ r, (f r).Sized (P.nx * P.nlat * P.nphi)) (hp : ∀ r, (p r).Sized (P.nx * P.nlat * P.nphi)) (y z : ℕ → ℝ)
    (hF : ∀ r, OneHarmonic g.d x l m (α r) (β r) y (f r).n) (hQ : ∀ r, OneHarmonic g.d x l m (α r) (β r) z (p r).n) (N : ℕ)
    (hfin : ∀ r, StaysFinite g e (f r) (p r) N) :
    ∃ y' z' : ℕ → ℝ, ∀ r, ∃ a F Q, evolve g J e (f r) (p r) N = .ok (a, F, Q) ∧ OneHarmonic g.d x l m (α r) (β r) y' F.n ∧
      OneHarmonic g.d x l m (α r) (β r) z' Q.n := by
  obtain ⟨κ, hκ⟩ := lapM_real l m P.nl P.nm
  obtain ⟨μ, hμ⟩ := filtM_real l m P.nl P.nm
  have := harm_run h he ho h0 h1 h2 ha hk hk1 hk2 hv hv4 J hl (m := fun _ : ι => m) (fun _ => hml) (fun _ => hm) (ρ := fun _ => 1) (fun _ => hκ)
    (fun _ => by rw [mul_one]; exact hμ) α β hf hp y z hF hQ N hfin
  simpa using this

/-- C107, the part that holds: a free field around a hole that does not rotate; runs (index `ι`) that start from harmonics of one degree
`l<nl` and possibly different orders `m r<nm`, with the same radial profiles, keep the same radial profiles up to the factor
`exp(-40 (m r/nl)^16)` per time step.  Missing: that factor should not be there, the profiles should be the same for all orders. -/
theorem C107_same_degree_partial (J : ℕ → Junk (Cx CR)) {l : ℕ} (hl : l < P.nl) {ι : Type} {m : ι → ℕ} (hml : ∀ r, m r ≤ l) (hm : ∀ r, m r < P.nm)
    (α β : ι → ℝ) {f p : ι → Field CR} (hf : ∀ r, (f r).Sized (P.nx * P.nlat * P.nphi)) (hp : ∀ r, (p r).Sized (P.nx * P.nlat * P.nphi)) (y z : ℕ → ℝ)
    (hF : ∀ r, OneHarmonic g.d x l (m r) (α r) (β r) y (f r).n) (hQ : ∀ r, OneHarmonic g.d x l (m r) (α r) (β r) z (p r).n) (N : ℕ)
    (hfin : ∀ r, StaysFinite g e (f r) (p r) N) :
    ∃ y' z' : ℕ → ℝ, ∀ r, ∃ a F Q, evolve g J e (f r) (p r) N = .ok (a, F, Q) ∧
      OneHarmonic g.d x l (m r) (α r) (β r) (fun ix => Real.exp (-40 * ((m r : ℝ) / P.nl) ^ 16) ^ N * y' ix) F.n ∧
      OneHarmonic g.d x l (m r) (α r) (β r) (fun ix => Real.exp (-40 * ((m r : ℝ) / P.nl) ^ 16) ^ N * z' ix) Q.n := by
  obtain ⟨y', z', key⟩ := harm_run h he ho h0 h1 h2 ha hk hk1 hk2 hv hv4 J hl.le hml (fun r => (hm r).le) (κ := -((l : ℝ) * (l + 1)))
    (μ := Real.exp (-40 * ((l : ℝ) / P.nl) ^ 16)) (ρ := fun r => Real.exp (-40 * ((m r : ℝ) / P.nl) ^ 16))
    (fun r => by rw [if_pos ⟨hl, hm r⟩]; unfold lapM; push_cast; ring) (fun r => by rw [if_pos ⟨hl, hm r⟩]; rfl) α β hf hp y z hF hQ N hfin
  refine ⟨y', z', fun r => ?_⟩
  obtain ⟨a, F, Q, k1, k2, k3⟩ := key r
  have go : ∀ v u, OneHarmonic g.d x l (m r) (Real.exp (-40 * ((m r : ℝ) / P.nl) ^ 16) ^ N * α r) (Real.exp (-40 * ((m r : ℝ) / P.nl) ^ 16) ^ N * β r) u v →
      OneHarmonic g.d x l (m r) (α r) (β r) (fun ix => Real.exp (-40 * ((m r : ℝ) / P.nl) ^ 16) ^ N * u ix) v := by
    intro v u hu ix it ip b1 b2 b3
    rw [hu ix it ip b1 b2 b3, fin_inj]
    unfold shapeY
    ring
  exact ⟨a, F, Q, k1, go _ _ k2, go _ _ k3⟩

end nospin

/-- a harmonic does not vanish at all points of the grid -/
theorem shapeY_node (h : Exact E P g q x A) {l m : ℕ} (hl : l ≤ P.nl) (hml : m ≤ l) (hm : m ≤ P.nm) :
    ∃ it ip, it < P.nlat ∧ ip < P.nphi ∧ shapeY l m 1 0 (Real.arccos (x it)) (phiN P.nphi ip) ≠ 0 := by
  by_contra hc
  push Not at hc
  have hw := h.setup.wf
  have e1 : g.sphere.sht.lmax = P.nl := by rw [hw.sph.api.lmax_eq, hw.lmax, h.setup.dims]
  have e2 : g.sphere.sht.mmax = P.nm := by rw [hw.sph.api.mmax_eq, hw.mmax, h.setup.dims]
  have key := anaN_fieldR h.math (c := realC l m 1 0) (fun k _ => realC_im _ _ _ _ _) (by rw [e1]; exact hl) hml (by rw [e2]; exact hm)
  rw [anaN_congr (w := fun _ _ => 0) fun it ip a b => by
    rw [hw.nlat, h.nlat] at a
    rw [hw.nphi, h.nphi] at b
    rw [shapeY_field (by rw [e1]; exact hl) hml (by rw [e2]; exact hm), hw.nphi, h.nphi, hc it ip a b]] at key
  have hne : realC l m 1 0 l m ≠ 0 := by
    unfold realC
    rw [if_pos ⟨rfl, rfl⟩]
    split_ifs <;> simp
  apply hne
  rw [← key]
  unfold anaN
  simp

/-- one short step from a state at rest at zero -/
theorem first_step (h : Exact E P g q x A) (ho : q.Ok) (h0 : 0 < q.lo) (h1 : q.lo < q.up) (h2 : q.up ≤ q.L) (hkin : q.kin 0 ≠ 0)
    {y z : Fin (P.nx * P.nlat * P.nphi) → ℝ} (hz : ∀ J, g.filter J (arr y) = .ok (arr z)) (hne : z ≠ 0) :
    ∃ δ : ℝ, 0 < δ ∧ ∀ τ : ℝ, |τ| < δ → ∀ (e : Eom CR) (f p : Field CR), Eom.Of g { P with dt := fin τ } e → f.Sized (P.nx * P.nlat * P.nphi) →
      p.Sized (P.nx * P.nlat * P.nphi) → f.n = arr (0 : Fin (P.nx * P.nlat * P.nphi) → ℝ) → p.n = arr y →
      ∃ w : State (P.nx * P.nlat * P.nphi), evoP e g f.n p.n 1 = (arr w.1, arr w.2) ∧ w.2 ≠ 0 := by
  obtain ⟨u, hu0, hu⟩ := C80_solution_exists h ho h0 h1 h2 (0, z) (fun i => ⟨by norm_num, hkin⟩)
  obtain ⟨C, δ, hδ, hC⟩ := C80_fourth_order h ho h0 h1 h2 hu
  have hcu : ContinuousAt u 0 := by
    obtain ⟨d, hd, _⟩ := hu.self_of_nhds
    exact hd.continuousAt
  have hlim : Tendsto (fun τ : ℝ => C * |τ| ^ 5 + ‖u τ - u 0‖) (𝓝 0) (𝓝 (C * |(0:ℝ)| ^ 5 + ‖u 0 - u 0‖)) :=
    ((continuousAt_const.mul ((continuous_abs.continuousAt).pow 5)).add (hcu.sub continuousAt_const).norm)
  have hzn : 0 < ‖z‖ := norm_pos_iff.mpr hne
  have hev := hlim.eventually (gt_mem_nhds (show C * |(0:ℝ)| ^ 5 + ‖u 0 - u 0‖ < ‖z‖ by simpa using hzn))
  obtain ⟨δ', hδ', hb⟩ := Metric.eventually_nhds_iff.mp hev
  refine ⟨min δ δ', lt_min hδ hδ', fun τ hτ e f p he hf hp e1 e2 => ?_⟩
  have ht := h.setup.total
  obtain ⟨J⟩ : Nonempty (Junk (Cx CR)) := ⟨fun _ _ => ⟨fin 0, fin 0⟩⟩
  have a1 : (u 0).1 = 0 := by rw [hu0]
  have a2 : (u 0).2 = z := by rw [hu0]
  obtain ⟨e', f', p', w, k1, k2, k3, k4⟩ := hC τ (hτ.trans_le (min_le_left _ _)) e J f p he hf hp (by rw [a1, e1]; exact h.filter_arr_zero J)
    (by rw [a2, e2]; exact hz J)
  have hS' := (h.with_dt τ).setup
  have key := Eom.time_step_eq h.setup.wf (he.wf hS') J (by rw [ht]; exact hf) (by rw [ht]; exact hp)
  rw [k1] at key
  cases key
  refine ⟨w, Prod.ext k2 k3, fun hw0 => ?_⟩
  have hb' := hb (show dist τ 0 < δ' by simpa using hτ.trans_le (min_le_right _ _))
  have t1 : ‖z‖ ≤ ‖w - u 0‖ := by
    have := norm_snd_le (w - u 0)
    rw [Prod.snd_sub, hw0, a2, zero_sub, norm_neg] at this
    exact this
  have t2 : ‖w - u 0‖ ≤ ‖w - u τ‖ + ‖u τ - u 0‖ := by
    have := norm_add_le (w - u τ) (u τ - u 0)
    rwa [sub_add_sub_cancel] at this
  linarith

/-- **C107**, violated: for a free field around a hole that does not rotate, for every degree `l<nl` and order `1≤m≤l`, `m<nm`, and for all
sufficiently small time steps: start one run from `f=0`, `p=Θ_l0(θ)` and another from `f=0`, `p=Θ_lm(θ)cos(mφ)`, at all radii.  After a
single step both runs are finite, and `p` does not have the same radial profile in the two runs. -/
theorem C107_same_degree_violated (h : Exact E P g q x A) (ho : q.Ok) (h0 : 0 < q.lo) (h1 : q.lo < q.up) (h2 : q.up ≤ q.L) (ha : q.a = 0)
    (hk : q.km1 = 0) (hk0 : q.k0 ≠ 0) (hk1 : q.k1 = 0) (hk2 : q.k2 = 0) (hv : q.V3 = 0) (hv4 : q.V4 = 0) {l m : ℕ} (hm1 : 1 ≤ m) (hml : m ≤ l)
    (hl : l < P.nl) (hm : m < P.nm) :
    ∃ δ : ℝ, 0 < δ ∧ ∀ τ : ℝ, |τ| < δ → ∀ (e : Eom CR) (J : ℕ → Junk (Cx CR)) (f p f' p' : Field CR), Eom.Of g { P with dt := fin τ } e →
      f.Sized (P.nx * P.nlat * P.nphi) → p.Sized (P.nx * P.nlat * P.nphi) → f'.Sized (P.nx * P.nlat * P.nphi) → p'.Sized (P.nx * P.nlat * P.nphi) →
      OneHarmonic g.d x l 0 1 0 (fun _ => 0) f.n → OneHarmonic g.d x l 0 1 0 (fun _ => 1) p.n →
      OneHarmonic g.d x l m 1 0 (fun _ => 0) f'.n → OneHarmonic g.d x l m 1 0 (fun _ => 1) p'.n →
      ∃ a a' F F' Q Q', evolve g J e f p 1 = .ok (a, F, Q) ∧ evolve g J e f' p' 1 = .ok (a', F', Q') ∧ AllFin F.n ∧ AllFin Q.n ∧ AllFin F'.n ∧
        AllFin Q'.n ∧ ¬ ∃ z : ℕ → ℝ, OneHarmonic g.d x l 0 1 0 z Q.n ∧ OneHarmonic g.d x l m 1 0 z Q'.n := by
  have ht := h.setup.total
  have hw := h.setup.wf
  have hok := hw.ok
  have hkin : q.kin 0 ≠ 0 := by
    unfold Phys.kin Kerr.kin
    simpa [hk] using hk0
  have hx0 : 0 < P.nx := by have := hok.nx_pos; rwa [h.nx] at this
  -- finite arrays of one harmonic
  obtain ⟨Y, hY⟩ : ∃ Y : ℕ → ℕ → ℝ, Y = fun m i => shapeY l m 1 0 (Real.arccos (x (g.d.dT i))) (phiN g.d.nphi (g.d.dP i)) := ⟨_, rfl⟩
  have harr : ∀ (m : ℕ) (c : ℝ) (v : List CR), v.length = P.nx * P.nlat * P.nphi → OneHarmonic g.d x l m 1 0 (fun _ => c) v →
      v = arr fun i : Fin (P.nx * P.nlat * P.nphi) => c * Y m i := by
    intro m c v hv ho
    have := (oneHarmonic_iff hok (hv.trans ht.symm)).mp ho
    unfold HarmF at this
    rw [ht] at this
    rw [hY]
    exact this.arr
  have hone : ∀ m' : ℕ, m' ≤ l → m' < P.nm → ∃ δ : ℝ, 0 < δ ∧ ∀ τ : ℝ, |τ| < δ → ∀ (e : Eom CR) (f p : Field CR), Eom.Of g { P with dt := fin τ } e →
      f.Sized (P.nx * P.nlat * P.nphi) → p.Sized (P.nx * P.nlat * P.nphi) → OneHarmonic g.d x l m' 1 0 (fun _ => 0) f.n →
      OneHarmonic g.d x l m' 1 0 (fun _ => 1) p.n →
      ∃ w : State (P.nx * P.nlat * P.nphi), evoP e g f.n p.n 1 = (arr w.1, arr w.2) ∧ w.2 ≠ 0 := by
    intro m' hm' hm''
    have hF : HarmF g.d (fun it ip => shapeY l m' 1 0 (Real.arccos (x it)) (phiN g.d.nphi ip)) (fun _ => 1)
        (arr fun i : Fin (P.nx * P.nlat * P.nphi) => 1 * Y m' i) := by
      unfold HarmF
      rw [ht]
      refine (arr_isF _).congr fun i hi => ?_
      simp only [extF, dif_pos hi, hY]
    have hfl := harm_filt h hl.le (ι := Unit) (m := fun _ => m') (fun _ => hm') (fun _ => hm''.le) (μ := 1)
      (ρ := fun _ => Real.exp (-40 * ((l : ℝ) / P.nl) ^ 16) * Real.exp (-40 * ((m' : ℝ) / P.nl) ^ 16))
      (fun _ => by rw [if_pos ⟨hl, hm''⟩, one_mul]; rfl) (α := fun _ => 1) (β := fun _ => 0) (fun _ => hF) ()
    obtain ⟨c, hc, hcp⟩ : ∃ c : ℝ, c = Real.exp (-40 * ((l : ℝ) / P.nl) ^ 16) * Real.exp (-40 * ((m' : ℝ) / P.nl) ^ 16) ∧ 0 < c := ⟨_, rfl, by positivity⟩
    rw [← hc] at hfl
    unfold HarmF at hfl
    rw [ht] at hfl
    have hz := hfl.arr
    obtain ⟨z, hzd⟩ : ∃ z : Fin (P.nx * P.nlat * P.nphi) → ℝ, z = fun i : Fin (P.nx * P.nlat * P.nphi) => c * Y m' i := ⟨_, rfl⟩
    have hz' : ∀ J, g.filter J (arr fun i : Fin (P.nx * P.nlat * P.nphi) => 1 * Y m' i) = .ok (arr z) := by
      intro J
      rw [hw.filter_eq J (by simp [arr, ht]), hz, hzd]
      congr 2
      funext i
      rw [hY]
      unfold shapeY
      ring
    have hzne : z ≠ 0 := by
      obtain ⟨it, ip, b1, b2, b3⟩ := shapeY_node h hl.le hm' hm''.le
      have hr := h.setup.inR hx0 b1 b2
      intro h0
      have := congrFun h0 ⟨g.d.pos3 0 it ip, by rw [← ht]; exact g.d.pos3_lt hr⟩
      rw [hzd, hY] at this
      simp only [g.d.dT_pos3 hr, g.d.dP_pos3 hr, Pi.zero_apply] at this
      rw [h.nphi] at this
      exact mul_ne_zero hcp.ne' b3 this
    obtain ⟨δ, hδ, hs⟩ := first_step h ho h0 h1 h2 hkin hz' hzne
    refine ⟨δ, hδ, fun τ hτ e f p he hf hp o1 o2 => hs τ hτ e f p he hf hp ?_ (harr _ _ _ hp.1 o2)⟩
    rw [harr _ _ _ hf.1 o1]
    congr 1
    funext i
    simp
  obtain ⟨δ1, p1, s1⟩ := hone 0 (by omega) (by omega)
  obtain ⟨δ2, p2, s2⟩ := hone m hml hm
  refine ⟨min δ1 δ2, lt_min p1 p2, fun τ hτ e J f p f' p' he hf hp hf' hp' o1 o2 o3 o4 => ?_⟩
  obtain ⟨w, hw1, hw2⟩ := s1 τ (hτ.trans_le (min_le_left _ _)) e f p he hf hp o1 o2
  obtain ⟨w', hw1', hw2'⟩ := s2 τ (hτ.trans_le (min_le_right _ _)) e f' p' he hf' hp' o3 o4
  have h' := h.with_dt τ
  have fin_arr : ∀ y : Fin (P.nx * P.nlat * P.nphi) → ℝ, AllFin (arr y) := fun y => (arr_isF y).allFin
  have stay : ∀ (m : ℕ) (f p : Field CR) (w : State (P.nx * P.nlat * P.nphi)), f.Sized (P.nx * P.nlat * P.nphi) → p.Sized (P.nx * P.nlat * P.nphi) →
      OneHarmonic g.d x l m 1 0 (fun _ => 0) f.n → OneHarmonic g.d x l m 1 0 (fun _ => 1) p.n → evoP e g f.n p.n 1 = (arr w.1, arr w.2) →
      StaysFinite g e f p 1 := by
    intro m f p w hf hp o1 o2 hw j hj J' e' F' Q' hev
    obtain ⟨s, F, Q, a1, _, _, _, a5, a6⟩ := evolve_eq h'.setup he J' hf hp j
    rw [a1] at hev
    cases hev
    rw [a5, a6]
    rcases Nat.le_one_iff_eq_zero_or_eq_one.mp hj with rfl | rfl
    · show AllFin f.n ∧ AllFin p.n
      rw [harr _ _ _ hf.1 o1, harr _ _ _ hp.1 o2]
      exact ⟨fin_arr _, fin_arr _⟩
    · rw [hw]
      exact ⟨fin_arr _, fin_arr _⟩
  have st1 := stay 0 f p w hf hp o1 o2 hw1
  have st2 := stay m f' p' w' hf' hp' o3 o4 hw1'
  obtain ⟨y', z', key⟩ := C107_same_degree_partial h' he (ho.with_dt τ) h0 h1 h2 ha hk hk1 hk2 hv hv4 J hl (ι := Bool) (m := fun b => bif b then m else 0)
    (fun b => by cases b <;> simp [hml]) (fun b => by cases b <;> simp <;> omega) (fun _ => 1) (fun _ => 0) (f := fun b => bif b then f' else f)
    (p := fun b => bif b then p' else p) (fun b => by cases b <;> assumption) (fun b => by cases b <;> assumption) (fun _ => 0) (fun _ => 1)
    (fun b => by cases b <;> assumption) (fun b => by cases b <;> assumption) 1 (fun b => by cases b <;> assumption)
  obtain ⟨a, F, Q, k1, _, k3⟩ := key false
  obtain ⟨a', F', Q', k1', _, k3'⟩ := key true
  simp only [cond_true, cond_false] at k1 k3 k1' k3'
  obtain ⟨f1, f2⟩ := st1 1 le_rfl _ _ _ _ k1
  obtain ⟨f3, f4⟩ := st2 1 le_rfl _ _ _ _ k1'
  refine ⟨a, a', F, F', Q, Q', k1, k1', f1, f2, f3, f4, ?_⟩
  rintro ⟨z, c1, c2⟩
  obtain ⟨s, Fq, Qq, b1, _, _, _, _, b6⟩ := evolve_eq h'.setup he J hf hp 1
  rw [k1] at b1
  cases b1
  rw [hw1] at b6
  -- the profile vanishes
  obtain ⟨it, ip, d1, d2, d3⟩ := shapeY_node h hl.le (Nat.zero_le l) (Nat.zero_le _)
  obtain ⟨it', ip', d1', d2', d3'⟩ := shapeY_node h hl.le hml hm.le
  have hz : ∀ ix, ix < P.nx → z' ix = 0 := by
    intro ix hix
    obtain ⟨r1, r2, r3⟩ := h.setup.inR hix d1 d2
    obtain ⟨r1', r2', r3'⟩ := h.setup.inR hix d1' d2'
    have t1 := (c1 ix it ip r1 r2 r3).symm.trans (k3 ix it ip r1 r2 r3)
    have t2 := (c2 ix it' ip' r1' r2' r3').symm.trans (k3' ix it' ip' r1' r2' r3')
    rw [fin_inj, h.nphi] at t1 t2
    have t1 := mul_right_cancel₀ d3 t1
    have t2 := mul_right_cancel₀ d3' t2
    rw [t1] at t2
    simp only [pow_one, Nat.cast_zero, zero_div] at t2
    rw [show (-40 * (0:ℝ) ^ 16) = 0 by norm_num, Real.exp_zero, one_mul] at t2
    have hlt : Real.exp (-40 * ((m : ℝ) / P.nl) ^ 16) < 1 := by
      rw [Real.exp_lt_one_iff]
      have : 0 < ((m : ℝ) / P.nl) ^ 16 := by
        have : 0 < (m : ℝ) := by exact_mod_cast hm1
        have : 0 < (P.nl : ℝ) := by exact_mod_cast (Nat.zero_lt_of_lt hl)
        positivity
      linarith
    by_contra hne
    have : (1 - Real.exp (-40 * ((m : ℝ) / P.nl) ^ 16)) * z' ix = 0 := by linear_combination t2
    rcases mul_eq_zero.mp this with h5 | h5
    · linarith
    · exact hne h5
  apply hw2
  funext i
  have hi : (i : ℕ) < g.d.total := by rw [ht]; exact i.2
  obtain ⟨r, r2⟩ := g.d.dec3 hi
  have t := k3 _ _ _ r.1 r.2.1 r.2.2
  rw [hok.at3_eq _ r, r2, b6, (arr_isF w.2).2 i i.2, extF_val, fin_inj] at t
  beta_reduce at t
  rw [hz _ (r.1.trans_eq h.nx)] at t
  rw [t]
  simp

/-- non-vacuity of C106 and C107: a hole that does not rotate, four runs of 3 steps that stay finite: degree 3, orders 0, 1 (two of them: cosine
and sine) and 2, with a common radial profile that depends on the radius; and arrays to which C107_same_degree_violated applies, for every
time step. -/
example (contig ndebug useCheb : Bool) : ∃ (E : Env CR) (x : ℕ → ℝ) (A : ℕ → ℕ → ℕ → ℝ) (g : Grid CR) (e : Eom CR) (a : ℝ) (f : Fin 4 → Field CR),
    Exact E stillP g stillQ x A ∧ Eom.Of g stillP e ∧ stillQ.Ok ∧ 0 < stillQ.lo ∧ stillQ.lo < stillQ.up ∧ stillQ.up ≤ stillQ.L ∧ stillQ.a = 0 ∧
    stillQ.km1 = 0 ∧ stillQ.k0 ≠ 0 ∧ stillQ.k1 = 0 ∧ stillQ.k2 = 0 ∧ stillQ.V3 = 0 ∧ stillQ.V4 = 0 ∧ 3 < stillP.nl ∧ 2 < stillP.nm ∧ 0 < a ∧
    (∀ r, (f r).Sized (stillP.nx * stillP.nlat * stillP.nphi)) ∧ (∀ r, StaysFinite g e (f r) (f r) 3) ∧
    (∀ r, OneHarmonic g.d x 3 (![0, 1, 1, 2] r) (![1, 1, 0, 5] r) (![0, 0, 1, 6] r) (fun ix => a * (ix + 1)) (f r).n) ∧
    ∀ (m : ℕ) (c : ℝ), ∃ p : Field CR, p.Sized (stillP.nx * stillP.nlat * stillP.nphi) ∧ OneHarmonic g.d x 3 m 1 0 (fun _ => c) p.n := by
  obtain ⟨E, x, A, g, h, ho, h0, h1, h2, ha, hn, hk⟩ := still_exact contig ndebug useCheb
  obtain ⟨e, _, he⟩ := Eom.Of.exists h.setup
  have ht := h.setup.total
  have hok := h.setup.wf.ok
  have hk0 : stillQ.k0 ≠ 0 := by simp only [stillQ, freeQ, demoQ]; norm_num
  obtain ⟨w, hw⟩ : ∃ w : Fin 4 → ℕ → ℝ, w = fun r i => ((g.d.dX i : ℝ) + 1) *
    shapeY 3 (![0, 1, 1, 2] r) (![1, 1, 0, 5] r) (![0, 0, 1, 6] r) (Real.arccos (x (g.d.dT i))) (phiN g.d.nphi (g.d.dP i)) := ⟨_, rfl⟩
  have key := fun r => C74_small_free_fields_stay_finite h he ho h0 h1 h2 hk0 rfl rfl rfl rfl rfl (w r) (w r) 3
  choose ε hε hs using key
  obtain ⟨a, ha0, hae⟩ : ∃ a : ℝ, 0 < a ∧ ∀ r, a < ε r := by
    refine ⟨(min (min (ε 0) (ε 1)) (min (ε 2) (ε 3))) / 2, by have := hε 0; have := hε 1; have := hε 2; have := hε 3; positivity, fun r => ?_⟩
    have hp : 0 < min (min (ε 0) (ε 1)) (min (ε 2) (ε 3)) := lt_min (lt_min (hε 0) (hε 1)) (lt_min (hε 2) (hε 3))
    have hle : min (min (ε 0) (ε 1)) (min (ε 2) (ε 3)) ≤ ε r := by
      fin_cases r
      · exact (min_le_left _ _).trans (min_le_left _ _)
      · exact (min_le_left _ _).trans (min_le_right _ _)
      · exact (min_le_right _ _).trans (min_le_left _ _)
      · exact (min_le_right _ _).trans (min_le_right _ _)
    linarith
  obtain ⟨mk, hmkd⟩ : ∃ mk : (ℕ → ℝ) → Field CR, mk = fun w => ⟨"f", tab g.d.total fun i => fin (w i), tab g.d.total fun i => fin (w i),
    tab g.d.total fun i => fin (w i), tab g.d.total fun i => fin (w i), g.d.total⟩ := ⟨_, rfl⟩
  have hmk : ∀ w, (mk w).Sized (stillP.nx * stillP.nlat * stillP.nphi) := fun w => by rw [← ht, hmkd]; simp [Field.Sized]
  have hgv : ∀ (w : ℕ → ℝ) i, i < g.d.total → gv (mk w).n i = fin (w i) := fun w i hi => by rw [hmkd]; exact gv_tab hi
  have hgv' : ∀ (w : ℕ → ℝ) i, i < stillP.nx * stillP.nlat * stillP.nphi → gv (mk w).n i = fin (w i) := fun w i hi => hgv w i (by rwa [ht])
  refine ⟨E, x, A, g, e, a, fun r => mk fun i => a * w r i, h, he, ho, h0, h1, h2, ha, rfl, hk0, rfl, rfl, rfl, rfl, by decide, by decide, ha0,
    fun r => hmk _, fun r => hs r a (by rw [abs_of_pos ha0]; exact hae r) _ _ (hmk _) (hmk _) (hgv' _) (hgv' _), fun r => ?_, fun m c => ?_⟩
  · refine (oneHarmonic_iff hok ((hmk _).1.trans ht.symm)).mpr ⟨(hmk _).1.trans ht.symm, fun i hi => ?_⟩
    rw [hgv _ i hi, hw, fin_inj]
    ring
  · refine ⟨mk fun i => c * shapeY 3 m 1 0 (Real.arccos (x (g.d.dT i))) (phiN g.d.nphi (g.d.dP i)), hmk _, ?_⟩
    exact (oneHarmonic_iff hok ((hmk _).1.trans ht.symm)).mpr ⟨(hmk _).1.trans ht.symm, fun i hi => hgv _ i hi⟩

end SFK
