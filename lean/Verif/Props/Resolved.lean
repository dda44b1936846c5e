import Verif.Spec.Resolved
import Verif.Props.KerrMetric
import Verif.Props.GridOps
import Verif.Props.SphereMath
import Verif.Spec.Symmetry
import Verif.Lemmas.LinGrid
import Mathlib.RingTheory.Polynomial.DegreeLT
import Mathlib.Analysis.Real.Pi.Bounds
import Mathlib.Analysis.SpecialFunctions.Trigonometric.Bounds
import Mathlib.Analysis.SpecialFunctions.Trigonometric.Deriv
/-
C79: exactness of the semi-discrete equations on resolved fields.
-/
namespace SFK
open Scalar CR Kerr Polynomial

/-! ### the radial polynomial through a grid line -/

/-- the polynomial in `R` that `F` is along the radial line at `(θ,φ)` -/
noncomputable def Modes.line (F : Modes) (nl : ℕ) (θ φ : ℝ) : ℝ[X] :=
  ∑ l ∈ Finset.range (nl + 1), (ThN l 0 θ • (F l 0).1 + (2 : ℝ) • ∑ m ∈ Finset.Icc 1 (min l nl),
    ((Ylm l m θ φ).re • (F l m).1 - (Ylm l m θ φ).im • (F l m).2))

theorem Modes.line_eval (F : Modes) (nl : ℕ) (θ φ R : ℝ) : (F.line nl θ φ).eval R = F.fn nl R θ φ := by
  unfold Modes.line Modes.fn fieldR
  rw [eval_finsetSum]
  refine Finset.sum_congr rfl fun l _ => ?_
  rw [eval_add, eval_smul, eval_smul, eval_finsetSum, Complex.re_sum]
  simp only [eval_sub, eval_smul, smul_eq_mul, Modes.at, Complex.mul_re]
  rw [mul_comm]
  congr 2
  refine Finset.sum_congr rfl fun m _ => ?_
  ring

theorem Modes.Resolved.line_deg {F : Modes} {useCheb : Bool} {nx nl nm : ℕ} (h : F.Resolved useCheb nx nl nm) (θ φ : ℝ) :
    if useCheb then (F.line nl θ φ).degree < (nx - 2 : ℕ) else (F.line nl θ φ).natDegree ≤ 6 := by
  have key : ∀ S : Submodule ℝ ℝ[X], (∀ l m, (F l m).1 ∈ S ∧ (F l m).2 ∈ S) → F.line nl θ φ ∈ S := by
    intro S hS
    unfold Modes.line
    refine S.sum_mem fun l _ => S.add_mem (S.smul_mem _ (hS l 0).1) (S.smul_mem _ (S.sum_mem fun m _ => ?_))
    exact S.sub_mem (S.smul_mem _ (hS l m).1) (S.smul_mem _ (hS l m).2)
  cases useCheb with
  | true =>
    simp only [if_true]
    have := key (degreeLT ℝ (nx - 2)) fun l m => by
      have := h.deg l m
      simp only [if_true] at this
      exact ⟨mem_degreeLT.mpr this.1, mem_degreeLT.mpr this.2⟩
    exact mem_degreeLT.mp this
  | false =>
    simp only [Bool.false_eq_true, if_false]
    have := key (degreeLE ℝ 6) fun l m => by
      have := h.deg l m
      simp only [Bool.false_eq_true, if_false] at this
      exact ⟨mem_degreeLE.mpr (natDegree_le_iff_degree_le.mp this.1), mem_degreeLE.mpr (natDegree_le_iff_degree_le.mp this.2)⟩
    exact natDegree_le_iff_degree_le.mpr (mem_degreeLE.mp this)

/-- the azimuthal derivative -/
noncomputable def Modes.dphi (F : Modes) : Modes := fun l m => (-((m : ℝ) • (F l m).2), (m : ℝ) • (F l m).1)

theorem Modes.dphi_at (F : Modes) (R : ℝ) : F.dphi.at R = fun l m => Complex.I * m * F.at R l m := by
  funext l m
  apply Complex.ext <;> simp [Modes.at, Modes.dphi]

theorem Modes.dphi_fn (F : Modes) (nl : ℕ) (R : ℝ) : dPh (F.fn nl R) = F.dphi.fn nl R := by
  unfold Modes.fn
  rw [dPh_fieldR, Modes.dphi_at]

theorem Modes.Resolved.dphi {F : Modes} {useCheb : Bool} {nx nl nm : ℕ} (h : F.Resolved useCheb nx nl nm) : F.dphi.Resolved useCheb nx nl nm := by
  refine ⟨fun l m => ?_, fun l => by simp [Modes.dphi], fun l m hl => by simp [Modes.dphi, h.top l m hl]⟩
  have := h.deg l m
  unfold Modes.dphi
  cases useCheb with
  | true =>
    simp only [if_true] at this ⊢
    refine ⟨?_, (degree_smul_le _ _).trans_lt this.1⟩
    rw [degree_neg]
    exact (degree_smul_le _ _).trans_lt this.2
  | false =>
    simp only [Bool.false_eq_true, if_false] at this ⊢
    refine ⟨?_, (natDegree_smul_le _ _).trans this.1⟩
    rw [natDegree_neg]
    exact (natDegree_smul_le _ _).trans this.2

variable {E : Env CR} {P : ParamRec CR} {g : Grid CR} {e : Eom CR} {q : Phys} {x : ℕ → ℝ} {A : ℕ → ℕ → ℕ → ℝ}

theorem fieldR_orders {L M : ℕ} (hM : M ≤ L) {c : ℕ → ℕ → ℂ} (h : ∀ l m, m ≤ l → l ≤ L → M < m → c l m = 0) :
    fieldR L L c = fieldR L M c := by
  funext θ φ
  unfold fieldR
  refine Finset.sum_congr rfl fun l hl => ?_
  congr 3
  refine (Finset.sum_subset (Finset.Icc_subset_Icc le_rfl (by omega)) fun m h1 h2 => ?_).symm
  simp only [Finset.mem_Icc, Finset.mem_range] at h1 h2 hl
  rw [h l m (by omega) (by omega) (by omega), zero_mul]

/-- the angular operators on a field without top harmonics -/
theorem HoldsC.angular (hX : Exact E P g q x A) {f : List CR} {c : ℝ → ℕ → ℕ → ℂ} (hre : ∀ R l, (c R l 0).im = 0)
    (htp : ∀ R l m, TopMode P.nl P.nm l m → c R l m = 0) (hf : HoldsC E P q x g f c) : ∃ oP oL oX : List CR, (∀ J z, z.length = f.length → g.set_partial_phi J f z = .ok oP ∧
      g.set_spherical_lap J f z = .ok oL ∧ g.set_sphereX J f z = .ok oX) ∧ HoldsC E P q x g oP (fun R l m => Complex.I * m * c R l m) ∧
      ∀ ix it ip, ix < P.nx → it < P.nlat → ip < P.nphi →
        g.d.at3 oL ix it ip = fin (lapS2 (fieldR P.nl P.nl (c (radPt E.useCheb P.nx q.lo q.up ix))) (Real.arccos (x it)) (phiN P.nphi ip)) ∧
        g.d.at3 oX ix it ip = fin (gradSq (fieldR P.nl P.nl (c (radPt E.useCheb P.nx q.lo q.up ix))) (Real.arccos (x it)) (phiN P.nphi ip)) := by
  have hw := hX.setup.wf
  have hm := hX.math
  have hlm : g.sphere.lmax = P.nl := by rw [hw.lmax, hX.setup.dims]
  have hmm : g.sphere.mmax = P.nm := by rw [hw.mmax, hX.setup.dims]
  have hle : P.nm ≤ P.nl := by rw [← hlm, ← hmm]; exact hw.sph.api.m_le
  have hcut : ∀ R, fieldR P.nl P.nl (c R) = fieldR P.nl P.nm (c R) := fun R => fieldR_orders hle fun l m a b d => htp R l m ⟨a, b, by omega⟩
  have hnla : g.sphere.nlat = P.nlat := by rw [hw.nlat, hX.setup.dims]
  have hnph : g.sphere.nphi = P.nphi := by rw [hw.nphi, hX.setup.dims]
  obtain ⟨oP, oL, oX, l1, l2, l3, h1, h2⟩ := C31_angular_operators hX.setup.sized hX.setup.sizes hX.setup.grid hf.1
  have main : ∀ ix it ip, ix < P.nx → it < P.nlat → ip < P.nphi →
      g.d.at3 oP ix it ip = fin (dPh (fieldR P.nl P.nl (c (radPt E.useCheb P.nx q.lo q.up ix))) (Real.arccos (x it)) (phiN P.nphi ip)) ∧
      g.d.at3 oL ix it ip = fin (lapS2 (fieldR P.nl P.nl (c (radPt E.useCheb P.nx q.lo q.up ix))) (Real.arccos (x it)) (phiN P.nphi ip)) ∧
      g.d.at3 oX ix it ip = fin (gradSq (fieldR P.nl P.nl (c (radPt E.useCheb P.nx q.lo q.up ix))) (Real.arccos (x it)) (phiN P.nphi ip)) := by
    intro ix it ip hx ht hp
    obtain ⟨R, hR⟩ : ∃ R, R = radPt E.useCheb P.nx q.lo q.up ix := ⟨_, rfl⟩
    have hsh : IsShell g.d f (g.d.shellOf f ix) ix := ⟨by simp [Dims.shell, Nat.mul_comm], fun it ip a b => by
      unfold Dims.shellOf
      exact hw.ok.at2_mk2 a b⟩
    have hspos : ∀ it ip, it < P.nlat → ip < P.nphi → g.d.indx_th_ph it ip = spos g.d.contig P.nlat P.nphi it ip := by
      intro it ip a b
      rw [hw.ok.indx2 (by rw [hX.setup.dims]; exact a) (by rw [hX.setup.dims]; exact b), pos2_eq_spos, hX.setup.dims]
    have hsam : Samples g.d.contig g.sphere.nlat g.sphere.nphi x (g.d.shellOf f ix) (fieldR g.sphere.lmax g.sphere.mmax (c R)) := by
      refine ⟨by rw [hnla, hnph, Dims.shellOf_length]; unfold Dims.shell; rw [hX.nlat, hX.nphi], fun it ip a b => ?_⟩
      rw [hnla] at a
      rw [hnph] at b
      rw [hnla, hnph, ← hspos it ip a b, hlm, hmm, ← hcut R]
      have := hf.2 ix it ip hx a b
      rw [← hR] at this
      refine Eq.trans ?_ this
      exact hsh.2 it ip (by rw [hX.setup.dims]; exact a) (by rw [hX.setup.dims]; exact b)
    have hreal : ∀ l, l ≤ g.sphere.lmax → (c R l 0).im = 0 := fun l _ => hre R l
    have hbel : Below g.sphere (c R) := by
      intro l m a b c d
      rw [hlm] at b d
      rw [hmm] at c d
      refine htp R l m ⟨a, b, ?_⟩
      omega
    have hres : SFK.Resolved g.sphere (c R) := by
      intro l m a b c
      rw [hlm] at b c
      rw [hmm] at b
      exact htp R l m ⟨a, c, by omega⟩
    have htt : c R g.sphere.mmax g.sphere.mmax = 0 := by
      rw [hmm]
      exact htp R _ _ ⟨le_rfl, hle, Or.inr (Or.inr ⟨rfl, rfl⟩)⟩
    obtain ⟨z, hz⟩ : ∃ z : List CR, z.length = g.sphere.nSph := ⟨List.replicate g.sphere.nSph (fin 0), List.length_replicate⟩
    have hz' : z.length = P.nlat * P.nphi := by
      rw [hz, hw.nSph_eq]
      unfold Dims.shell
      rw [hX.nlat, hX.nphi]
    obtain ⟨J⟩ : Nonempty (Junk (Cx CR)) := ⟨fun _ _ => ⟨fin 0, fin 0⟩⟩
    obtain ⟨sP, sL, sX, b1, b2, b3, b4⟩ := h2 ix hx _ hsh J z hz'
    obtain ⟨w1, c1, d1⟩ := C24_true_derivative_partial hw.sph hm J hreal hbel hsam hz
    obtain ⟨w2, c2, d2⟩ := C23_true_laplacian_partial hw.sph hm J hreal hbel hsam hz
    obtain ⟨w3, c3, d3⟩ := C26_gradient_partial hw.sph hm hX.setup.full J hreal hres htt hsam hz
    rw [b1] at c1; rw [b2] at c2; rw [b3 hX.setup.orders] at c3
    cases c1; cases c2; cases c3
    obtain ⟨e1, e2, e3⟩ := b4 it ip ht hp
    rw [e1, e2, e3]
    unfold Dims.at2
    rw [hspos it ip ht hp]
    rw [hlm, hmm, hnla, hnph, ← hcut R] at d1 d2 d3
    rw [d1.2 it ip ht hp, d2.2 it ip ht hp, d3.2 it ip ht hp, ← hR]
    exact ⟨rfl, rfl, rfl⟩
  refine ⟨oP, oL, oX, fun J z hz => ⟨(h1 J z (by rw [hz, hf.1])).1, (h1 J z (by rw [hz, hf.1])).2.1, (h1 J z (by rw [hz, hf.1])).2.2 hX.setup.orders⟩, ⟨l1, fun ix it ip hx ht hp => ?_⟩, fun ix it ip hx ht hp => (main ix it ip hx ht hp).2⟩
  rw [(main ix it ip hx ht hp).1, dPh_fieldR]

/-- the angular operators on a resolved field -/
theorem Holds.angular (hX : Exact E P g q x A) {f : List CR} {F : Modes} (hF : F.Resolved E.useCheb P.nx P.nl P.nm)
    (hf : Holds E P q x g f F) : ∃ oP oL oX : List CR, (∀ J z, z.length = f.length → g.set_partial_phi J f z = .ok oP ∧
      g.set_spherical_lap J f z = .ok oL ∧ g.set_sphereX J f z = .ok oX) ∧ Holds E P q x g oP F.dphi ∧
      ∀ ix it ip, ix < P.nx → it < P.nlat → ip < P.nphi →
        g.d.at3 oL ix it ip = fin (lapS2 (F.fn P.nl (radPt E.useCheb P.nx q.lo q.up ix)) (Real.arccos (x it)) (phiN P.nphi ip)) ∧
        g.d.at3 oX ix it ip = fin (gradSq (F.fn P.nl (radPt E.useCheb P.nx q.lo q.up ix)) (Real.arccos (x it)) (phiN P.nphi ip)) := by
  obtain ⟨oP, oL, oX, h1, h2, h3⟩ := HoldsC.angular (c := F.at) hX (fun R l => by simp [Modes.at, hF.real l])
    (fun R l m hl => by apply Complex.ext <;> simp [Modes.at, hF.top l m hl]) hf
  refine ⟨oP, oL, oX, h1, ?_, h3⟩
  have e : (fun R l m => Complex.I * m * F.at R l m) = F.dphi.at := by funext R; exact (Modes.dphi_at F R).symm
  rw [e] at h2
  exact h2

/-- the radial operators on a resolved field -/
theorem Holds.radial (hX : Exact E P g q x A) (hL : 0 < q.L) (hlu : q.lo < q.up) {f : List CR} {F : Modes}
    (hF : F.Resolved E.useCheb P.nx P.nl P.nm) (hf : Holds E P q x g f F) {dr drr : List CR}
    (h1 : ∀ z, z.length = f.length → g.set_partial_r f z = .ok dr) (h2 : ∀ z, z.length = f.length → g.set_partial2_r f z = .ok drr) :
    ∀ ix it ip, ix < P.nx → it < P.nlat → ip < P.nphi → ∀ R, R = radPt E.useCheb P.nx q.lo q.up ix → 0 < R → R < q.L →
      ∃ y1 y2 : ℝ, g.d.at3 dr ix it ip = fin y1 ∧ g.d.at3 drr ix it ip = fin y2 ∧
        HasDerivAt (fun r => F.fn P.nl (compR q.L r) (Real.arccos (x it)) (phiN P.nphi ip)) y1 (physR q.L R) ∧
        HasDerivAt (deriv fun r => F.fn P.nl (compR q.L r) (Real.arccos (x it)) (phiN P.nphi ip)) y2 (physR q.L R) := by
  intro ix it ip hx ht hp R hR h0 hR1
  have hg := hX.setup.grid
  rw [hX.phys.L, hX.phys.lo, hX.phys.up] at hg
  obtain ⟨o1, o2, a1, a2, a3⟩ := C32_chain_rule hX.setup.sized (fun _ => hX.env.fftw) hX.setup.sizes hL hlu hg
    (fun it ip => F.line P.nl (Real.arccos (x it)) (phiN P.nphi ip)) (fun it ip => hF.line_deg _ _) hf.1 hf.1
    (fun ix it ip a b c => by rw [Modes.line_eval]; exact hf.2 ix it ip a b c)
  rw [h1 f rfl] at a1
  rw [h2 f rfl] at a2
  cases a1; cases a2
  obtain ⟨y1, y2, b1, b2, b3⟩ := a3 ix it ip hx ht hp
  have := (b3 R hR).1 h0 hR1
  simp only [Modes.line_eval] at this
  exact ⟨y1, y2, b1, b2, this⟩

theorem physR_pos {L R : ℝ} (hL : 0 < L) (h0 : 0 < R) (hR : R < L) : 0 < physR L R := by
  unfold physR
  have : R / L < 1 := by rwa [div_lt_one hL]
  exact div_pos h0 (by linarith)

/-- C79: the space discretisation is exact on resolved fields.  Take any function `ψ`, twice continuously differentiable at the
grid points, that on the slice `v=v₀` is, together with `∂_vψ`, a sum of spherical harmonics below the top ones (`TopMode`) with coefficients
polynomial (degree at most 6 for finite differences, below `nx-2` for Chebyshev) in the compactified radius, and give its values and
those of `∂_vψ` to the solver.  Then the time derivatives the solver computes are `∂_vψ` and, at every point at finite radius where
`ψ` solves the covariant field equation of the Kerr metric, `∂_v²ψ`: there is no discretisation error. -/
theorem C79_exact_on_resolved (hX : Exact E P g q x A) (ho : q.Ok) (hlu : q.lo < q.up) (he : Eom.Of g P e)
    (J : Junk (Cx CR)) {F G : Modes} (hF : F.Resolved E.useCheb P.nx P.nl P.nm) (hG : G.Resolved E.useCheb P.nx P.nl P.nm) {f p fk pk : List CR}
    (hf : Holds E P q x g f F) (hp : Holds E P q x g p G) (hfk : fk.length = P.nx * P.nlat * P.nphi)
    (hpk : pk.length = P.nx * P.nlat * P.nphi) :
    ∃ e' pk', e.set_k g J f p fk pk = .ok (e', p, pk') ∧
      ∀ (ψ : Pt → ℝ) (v0 : ℝ), OnSlice ψ v0 q.L P.nl F G →
      ∀ ix it ip, ix < P.nx → it < P.nlat → ip < P.nphi → ∀ R θ φ : ℝ, g.getR_th_ph ix it ip = .ok ⟨fin R, fin θ, fin φ⟩ →
        0 < R → 1 / 10 ^ 16 < q.L - R → ContDiffAt ℝ 2 ψ ![v0, physR q.L R, θ, φ] →
        g.d.at3 f ix it ip = fin (ψ ![v0, physR q.L R, θ, φ]) ∧
        g.d.at3 p ix it ip = fin (pd 0 ψ ![v0, physR q.L R, θ, φ]) ∧
        (ψ ![v0, physR q.L R, θ, φ] ≠ -1 → q.kin (ψ ![v0, physR q.L R, θ, φ]) ≠ 0 →
          (eomLhs q.kin q.pot (ψ ![v0, physR q.L R, θ, φ]) (boxG (metric q.M q.a) ψ ![v0, physR q.L R, θ, φ])
            (gradG (metric q.M q.a) ψ ![v0, physR q.L R, θ, φ]) = 0 ↔
          g.d.at3 pk' ix it ip = fin (pd 0 (pd 0 ψ) ![v0, physR q.L R, θ, φ]))) := by
  obtain ⟨e', pk', dr, drp, drr, dph, drph, X, lap, h1, h2, h3⟩ := C77_covariant_equation hX.setup hX.phys ho he J hf.1 hp.1 hfk hpk
  refine ⟨e', pk', h1, ?_⟩
  obtain ⟨oP, oL, oX, a1, a2, a3⟩ := hf.angular hX hF
  obtain ⟨J0⟩ : Nonempty (Junk (Cx CR)) := ⟨fun _ _ => ⟨fin 0, fin 0⟩⟩
  have e1 : oP = dph := by have := (a1 J0 f rfl).1; rw [h2.h_dph J0 f rfl] at this; cases this; rfl
  have e2 : oL = lap := by have := (a1 J0 f rfl).2.1; rw [h2.h_lap J0 f rfl] at this; cases this; rfl
  have e3 : oX = X := by have := (a1 J0 f rfl).2.2; rw [h2.h_X J0 f rfl] at this; cases this; rfl
  subst e1 e2 e3
  obtain ⟨drrp, drrph, k1, k2⟩ : ∃ drrp drrph, (∀ z, z.length = p.length → g.set_partial2_r p z = .ok drrp) ∧
      (∀ z, z.length = oP.length → g.set_partial2_r oP z = .ok drrph) := by
    have hw := hX.setup.wf
    have ht := hX.setup.total
    exact ⟨_, _, fun z hz => hw.set_partial2_r_eq (by rw [hp.1, ht]) (by rw [hz, hp.1, ht]),
      fun z hz => hw.set_partial2_r_eq (by rw [a2.1, ht]) (by rw [hz, a2.1, ht])⟩
  have rf := hf.radial hX ho.L_pos hlu hF h2.h_dr h2.h_drr
  have rp := hp.radial hX ho.L_pos hlu hG (fun z hz => h2.h_drp z (by rw [hz, hp.1, hf.1])) k1
  have rph := a2.radial hX ho.L_pos hlu hF.dphi (fun z hz => h2.h_drph z (by rw [hz, a2.1, hf.1])) k2
  intro ψ v0 hψ ix it ip hx hit hip R θ φ hc h0 hL hC
  have hc' := hX.setup.coords hX.phys hX.env hx hit hip
  rw [hc] at hc'
  injection hc' with hc'
  injection hc' with c1 c2 c3
  rw [fin_inj] at c1 c2 c3
  have hRL : R < q.L := by
    have : (0:ℝ) < 1 / 10 ^ 16 := by positivity
    linarith
  have hr := physR_pos ho.L_pos h0 hRL
  have hin := hX.env.math.inside it hit
  have hs : 0 < Real.sin θ := by
    rw [c2, Real.sin_arccos]
    exact Real.sqrt_pos.mpr (by nlinarith [hin.1, hin.2])
  have c3' : φ = phiN P.nphi ip := c3
  obtain ⟨y1, y2, r1, r2, r3, r4⟩ := rf ix it ip hx hit hip R c1 h0 hRL
  obtain ⟨z1, _, s1, _, s3, _⟩ := rp ix it ip hx hit hip R c1 h0 hRL
  obtain ⟨w1, _, t1, _, t3, _⟩ := rph ix it ip hx hit hip R c1 h0 hRL
  rw [← c2, ← c3'] at r3 r4 s3 t3
  obtain ⟨r, hrr⟩ : ∃ r, r = physR q.L R := ⟨_, rfl⟩
  have hcr : compR q.L r = R := by rw [hrr]; exact compR_physR ho.L_pos hRL
  rw [← hrr] at r3 r4 s3 t3 hr hC ⊢
  obtain ⟨pt, hpt⟩ : ∃ pt : Pt, pt = ![v0, r, θ, φ] := ⟨_, rfl⟩
  have u1 : ∀ t, Function.update pt 1 t = ![v0, t, θ, φ] := by
    intro t; rw [hpt]; funext i; fin_cases i <;> simp [Function.update]
  have u3 : ∀ t s, Function.update (![v0, t, θ, φ] : Pt) 3 s = ![v0, t, θ, s] := by
    intro t s; funext i; fin_cases i <;> simp [Function.update]
  have q1 : pt 1 = r := by rw [hpt]; rfl
  have pdψ1 : ∀ t, 0 < t → pd 1 ψ ![v0, t, θ, φ] = deriv (fun r => F.fn P.nl (compR q.L r) θ φ) t := by
    intro t ht
    unfold pd
    refine Filter.EventuallyEq.deriv_eq ?_
    filter_upwards [lt_mem_nhds (show 0 < (![v0, t, θ, φ] : Pt) 1 from ht)] with s hs'
    rw [show Function.update (![v0, t, θ, φ] : Pt) 1 s = ![v0, s, θ, φ] by funext i; fin_cases i <;> simp [Function.update]]
    exact (hψ s θ φ hs').1
  have pdψ3 : ∀ t, 0 < t → pd 3 ψ ![v0, t, θ, φ] = F.dphi.fn P.nl (compR q.L t) θ φ := by
    intro t ht
    rw [← Modes.dphi_fn]
    unfold pd dPh
    congr 1
    funext s
    beta_reduce
    rw [u3]
    exact (hψ t θ s ht).1
  have hfun : (fun θ φ => ψ ![pt 0, pt 1, θ, φ]) = F.fn P.nl R := by
    funext a b
    rw [show pt 0 = v0 by rw [hpt]; rfl, q1, (hψ r a b hr).1, hcr]
  have jet : JetAt g ix it ip f p dr drp drr oP drph oX oL (jetOf ψ pt) := by
    refine ⟨?_, ?_, ?_, ?_, ?_, ?_, ?_, ?_, ?_⟩
    · rw [hf.2 ix it ip hx hit hip, ← c1, ← c2, ← c3']
      simp only [jetOf]
      rw [hpt, (hψ r θ φ hr).1, hcr]
    · rw [hp.2 ix it ip hx hit hip, ← c1, ← c2, ← c3']
      simp only [jetOf]
      rw [hpt, (hψ r θ φ hr).2, hcr]
    · rw [r1]; simp only [jetOf]
      rw [hpt, pdψ1 r hr, r3.deriv]
    · rw [s1]; simp only [jetOf]
      congr 1
      symm
      refine pd_of (G := fun t => G.fn P.nl (compR q.L t) θ φ) ?_ (by rw [q1]; exact s3)
      rw [q1]
      filter_upwards [lt_mem_nhds hr] with t ht
      rw [u1]
      exact (hψ t θ φ ht).2
    · rw [r2]; simp only [jetOf]
      congr 1
      symm
      refine pd_of (G := deriv fun r => F.fn P.nl (compR q.L r) θ φ) ?_ (by rw [q1]; exact r4)
      rw [q1]
      filter_upwards [lt_mem_nhds hr] with t ht
      rw [u1]
      exact pdψ1 t ht
    · rw [a2.2 ix it ip hx hit hip, ← c1, ← c2, ← c3']
      simp only [jetOf]
      rw [hpt, pdψ3 r hr, hcr]
    · rw [t1]; simp only [jetOf]
      congr 1
      symm
      refine pd_of (G := fun t => F.dphi.fn P.nl (compR q.L t) θ φ) ?_ (by rw [q1]; exact t3)
      rw [q1]
      filter_upwards [lt_mem_nhds hr] with t ht
      rw [u1]
      exact pdψ3 t ht
    · rw [(a3 ix it ip hx hit hip).2, ← c1, ← c2, ← c3']
      simp only [jetOf]
      rw [hfun, show pt 2 = θ by rw [hpt]; rfl, show pt 3 = φ by rw [hpt]; rfl]
    · rw [(a3 ix it ip hx hit hip).1, ← c1, ← c2, ← c3']
      simp only [jetOf]
      rw [hfun, show pt 2 = θ by rw [hpt]; rfl, show pt 3 = φ by rw [hpt]; rfl]
  rw [← hpt] at hC ⊢
  refine ⟨jet.psi, jet.v, fun n1 n2 => ?_⟩
  exact h3 ix it ip hx hit hip R θ _ hc h0 hL hs ψ pt hC (q1.trans hrr) (by rw [hpt]; rfl) jet n1 n2

/-! ### non-vacuity: every pair of resolved data lies on a smooth spacetime function -/

theorem contDiff_poly (p : ℝ[X]) : ContDiff ℝ 2 (fun t => p.eval t) := by
  simp only [Polynomial.eval_eq_sum_range]
  exact ContDiff.sum fun i _ => contDiff_const.mul (contDiff_id.pow i)

theorem contDiff_ThN (l m : ℕ) : ContDiff ℝ 2 (ThN l m) := by
  unfold ThN
  exact (contDiff_const.mul (Real.contDiff_sin.pow m)).mul ((contDiff_poly _).comp Real.contDiff_cos)

theorem Ylm_re_im (l m : ℕ) (θ φ : ℝ) : (Ylm l m θ φ).re = ThN l m θ * Real.cos (m * φ) ∧ (Ylm l m θ φ).im = ThN l m θ * Real.sin (m * φ) := by
  unfold Ylm ThZ
  rw [if_pos (by positivity), Int.toNat_natCast]
  have : Complex.I * ((m : ℤ) : ℂ) * (φ : ℂ) = ((m * φ : ℝ) : ℂ) * Complex.I := by push_cast; ring
  rw [this, Complex.exp_mul_I, ← Complex.ofReal_cos, ← Complex.ofReal_sin]
  generalize Real.cos (m * φ) = c
  generalize Real.sin (m * φ) = s
  constructor <;> simp

theorem Modes.fn_eq (F : Modes) (nl : ℕ) (R θ φ : ℝ) : F.fn nl R θ φ = ∑ l ∈ Finset.range (nl + 1), (ThN l 0 θ * (F l 0).1.eval R +
    2 * ∑ m ∈ Finset.Icc 1 (min l nl), (ThN l m θ * Real.cos (m * φ) * (F l m).1.eval R - ThN l m θ * Real.sin (m * φ) * (F l m).2.eval R)) := by
  rw [← Modes.line_eval]
  unfold Modes.line
  rw [eval_finsetSum]
  refine Finset.sum_congr rfl fun l _ => ?_
  rw [eval_add, eval_smul, eval_smul, eval_finsetSum]
  simp only [eval_sub, eval_smul, smul_eq_mul]
  congr 2
  refine Finset.sum_congr rfl fun m _ => ?_
  rw [(Ylm_re_im l m θ φ).1, (Ylm_re_im l m θ φ).2]

theorem Modes.contDiffAt (F : Modes) (nl : ℕ) {L : ℝ} (hL : 0 < L) {y : Pt} (hy : 0 < y 1) :
    ContDiffAt ℝ 2 (fun y : Pt => F.fn nl (compR L (y 1)) (y 2) (y 3)) y := by
  have hc : ∀ i : Fin 4, ContDiffAt ℝ 2 (fun y : Pt => y i) y := fun i => (contDiff_apply ℝ ℝ i).contDiffAt
  have hR : ContDiffAt ℝ 2 (fun y : Pt => compR L (y 1)) y := by
    unfold compR
    exact (hc 1).div (contDiffAt_const.add ((hc 1).div_const L)) (by positivity)
  have hp : ∀ p : ℝ[X], ContDiffAt ℝ 2 (fun y : Pt => p.eval (compR L (y 1))) y := fun p => (contDiff_poly p).contDiffAt.comp y hR
  have hT : ∀ l m, ContDiffAt ℝ 2 (fun y : Pt => ThN l m (y 2)) y := fun l m => (contDiff_ThN l m).contDiffAt.comp y (hc 2)
  have hcs : ∀ m : ℕ, ContDiffAt ℝ 2 (fun y : Pt => Real.cos (m * y 3)) y := fun m =>
    Real.contDiff_cos.contDiffAt.comp y (contDiffAt_const.mul (hc 3))
  have hsn : ∀ m : ℕ, ContDiffAt ℝ 2 (fun y : Pt => Real.sin (m * y 3)) y := fun m =>
    Real.contDiff_sin.contDiffAt.comp y (contDiffAt_const.mul (hc 3))
  simp only [Modes.fn_eq]
  refine ContDiffAt.sum fun l _ => ((hT l 0).mul (hp _)).add (contDiffAt_const.mul (ContDiffAt.sum fun m _ => ?_))
  exact (((hT l m).mul (hcs m)).mul (hp _)).sub (((hT l m).mul (hsn m)).mul (hp _))

theorem slice_realised (F G : Modes) (nl : ℕ) {L : ℝ} (hL : 0 < L) (v0 : ℝ) : ∃ ψ : Pt → ℝ, OnSlice ψ v0 L nl F G ∧
    ∀ y : Pt, 0 < y 1 → ContDiffAt ℝ 2 ψ y := by
  refine ⟨fun y => F.fn nl (compR L (y 1)) (y 2) (y 3) + (y 0 - v0) * G.fn nl (compR L (y 1)) (y 2) (y 3), fun r θ φ hr => ⟨?_, ?_⟩, ?_⟩
  · simp
  · refine pd_quad (A := F.fn nl (compR L r) θ φ) (C := 0) fun t => ?_
    simp [Function.update]
    ring
  · intro y hy
    exact (F.contDiffAt nl hL hy).add ((((contDiff_apply ℝ ℝ 0).contDiffAt).sub contDiffAt_const).mul (G.contDiffAt nl hL hy))

/-- modes of the example: `l=2,m=1` with coefficient `R^3 + i R`, `l=3,m=0` with coefficient `R^6`. -/
noncomputable def demoF : Modes := fun l m => if l = 2 ∧ m = 1 then (X ^ 3, X) else if l = 3 ∧ m = 0 then (X ^ 6, 0) else 0

theorem demoF_resolved (b : Bool) {nm : ℕ} (hnm : 3 ≤ nm) : demoF.Resolved b 33 7 nm := by
  refine ⟨fun l m => ?_, fun l => ?_, fun l m hl => ?_⟩
  · unfold demoF
    cases b <;> split_ifs <;> simp <;> (try constructor) <;> (try rw [degree_X_pow]) <;> (try rw [degree_X]) <;> norm_cast
  · unfold demoF
    split_ifs <;> simp_all
  · have : ¬ (l = 2 ∧ m = 1) ∧ ¬ (l = 3 ∧ m = 0) := by
      unfold TopMode at hl
      omega
    simp [demoF, this.1, this.2]

theorem radPt_demo (b : Bool) : 0 < radPt b demoP.nx demoQ.lo demoQ.up 3 ∧ radPt b demoP.nx demoQ.lo demoQ.up 3 < 99.9 := by
  have hlo : compR 100 (9/10) = 900 / 1009 := by unfold compR; norm_num
  have hc : Real.cos (Real.pi * (3 : ℕ) / ((33 : ℕ) - 1 : ℝ)) < 99 / 100 ∧ 0 < Real.cos (Real.pi * (3 : ℕ) / ((33 : ℕ) - 1 : ℝ)) := by
    have h1 := Real.pi_gt_three
    have h2 := Real.pi_lt_d2
    obtain ⟨y, hy⟩ : ∃ y, y = Real.pi * (3 : ℕ) / ((33 : ℕ) - 1 : ℝ) := ⟨_, rfl⟩
    have hy1 : 9 / 32 < y := by rw [hy]; norm_num; linarith
    have hy2 : y < 1 / 2 := by rw [hy]; norm_num; linarith
    rw [← hy]
    refine ⟨?_, Real.cos_pos_of_mem_Ioo ⟨by linarith, by linarith⟩⟩
    have := Real.cos_le_one_sub_mul_cos_sq (x := y) (by rw [abs_le]; constructor <;> linarith)
    have h3 : 2 / Real.pi ^ 2 * y ^ 2 > 1 / 100 := by
      have : Real.pi ^ 2 < 10 := by nlinarith
      rw [gt_iff_lt, div_mul_eq_mul_div, div_lt_div_iff₀ (by norm_num) (by positivity)]
      nlinarith
    linarith
  cases b
  · simp only [radPt, demoQ, demoP, hlo]; norm_num
  · have e : radPt true demoP.nx demoQ.lo demoQ.up 3 = (100 - 900 / 1009) / 2 * Real.cos (Real.pi * (3 : ℕ) / ((33 : ℕ) - 1 : ℝ)) + (100 + 900/1009) / 2 := by
      simp only [radPt, if_true, chebPt, demoQ, demoP, hlo]
    rw [e]
    constructor <;> nlinarith [hc.1, hc.2]

/-- non-vacuity of C79 (and of C77, C78): with either radial discretisation, arrays holding a resolved non-axisymmetric field, and a
function through them that is C² at every point of positive radius; the grid point `(3,2,5)` is one of those. -/
example (b : Bool) : ∃ (E : Env CR) (x : ℕ → ℝ) (A : ℕ → ℕ → ℕ → ℝ) (g : Grid CR) (e : Eom CR) (f p : List CR) (ψ : Pt → ℝ),
    E.useCheb = b ∧ Exact E demoP g demoQ x A ∧ demoQ.Ok ∧ demoQ.lo < demoQ.up ∧ Eom.Of g demoP e ∧
    demoF.Resolved E.useCheb demoP.nx demoP.nl demoP.nm ∧ Holds E demoP demoQ x g f demoF ∧ Holds E demoP demoQ x g p demoF.dphi ∧
    OnSlice ψ 0 demoQ.L demoP.nl demoF demoF.dphi ∧ (∀ y : Pt, 0 < y 1 → ContDiffAt ℝ 2 ψ y) ∧
    ∃ R θ φ : ℝ, g.getR_th_ph 3 2 5 = .ok ⟨fin R, fin θ, fin φ⟩ ∧ 0 < R ∧ 1 / 10 ^ 16 < demoQ.L - R := by
  obtain ⟨E, x, A, g, e, h1, h2, h3, h4, h5, h6, h7⟩ := demo_setup true false b
  have hlo : compR 100 (9/10) = 900 / 1009 := by unfold compR; norm_num
  have hlu : demoQ.lo < demoQ.up := by simp only [demoQ, hlo]; norm_num
  have hH : ∀ F : Modes, ∃ f, Holds E demoP demoQ x g f F := by
    intro F
    have ht := h5.total
    refine ⟨g.d.mk3 fun ix it ip => fin (F.fn demoP.nl (radPt E.useCheb demoP.nx demoQ.lo demoQ.up ix) (Real.arccos (x it)) (phiN demoP.nphi ip)),
      by rw [← ht]; simp, fun ix it ip a b c => ?_⟩
    exact h5.wf.ok.at3_mk3 (h5.inR a b c)
  obtain ⟨f, hf⟩ := hH demoF
  obtain ⟨p, hp⟩ := hH demoF.dphi
  obtain ⟨ψ, hψ1, hψ2⟩ := slice_realised demoF demoF.dphi demoP.nl demo_ok.L_pos 0
  refine ⟨E, x, A, g, e, f, p, ψ, h3, ⟨h5, h4, demo_is, hlu.ne, ?_⟩, demo_ok, hlu, h7, demoF_resolved _ (by decide), hf, hp, hψ1, hψ2, _, _, _,
    h5.coords demo_is h4 (by decide) (by decide) (by decide), ?_, ?_⟩
  · exact demo_ok.L_pos.ne'
  · have := radPt_demo E.useCheb
    linarith [this.1]
  · have := radPt_demo E.useCheb
    simp only [demoQ] at *
    linarith [this.2]

end SFK
