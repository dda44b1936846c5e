import Verif.Spec.Consistency
import Verif.Props.Resolved
/-
Calculus of smooth mode sums, the finite-difference operators on them, and how errors of the derivatives enter the time derivative.
-/
namespace SFK
open Scalar CR Kerr

/-! ### smooth mode sums -/

theorem SModes.fn_eq (F : SModes) (nl : ℕ) (R θ φ : ℝ) : F.fn nl R θ φ = ∑ l ∈ Finset.range (nl + 1), (ThN l 0 θ * (F l 0).1 R +
    2 * ∑ m ∈ Finset.Icc 1 (min l nl), (ThN l m θ * Real.cos (m * φ) * (F l m).1 R - ThN l m θ * Real.sin (m * φ) * (F l m).2 R)) := by
  unfold SModes.fn fieldR
  refine Finset.sum_congr rfl fun l _ => ?_
  rw [Complex.re_sum]
  simp only [SModes.at, Complex.mul_re]
  rw [mul_comm]
  congr 2
  refine Finset.sum_congr rfl fun m _ => ?_
  rw [(Ylm_re_im l m θ φ).1, (Ylm_re_im l m θ φ).2]
  ring

/-- derivative of the coefficients -/
noncomputable def SModes.D (F : SModes) : SModes := fun l m => (deriv (F l m).1, deriv (F l m).2)

/-- coefficients of the azimuthal derivative -/
noncomputable def SModes.dphi (F : SModes) : SModes := fun l m => (fun R => -(m * (F l m).2 R), fun R => m * (F l m).1 R)

theorem SModes.dphi_at (F : SModes) (R : ℝ) : F.dphi.at R = fun l m => Complex.I * m * F.at R l m := by
  funext l m
  apply Complex.ext <;> simp [SModes.at, SModes.dphi]

theorem SModes.dphi_fn (F : SModes) (nl : ℕ) (R : ℝ) : dPh (F.fn nl R) = F.dphi.fn nl R := by
  unfold SModes.fn
  rw [dPh_fieldR, SModes.dphi_at]

theorem SModes.Smooth.dphi {F : SModes} {n nl nm : ℕ} (h : F.Smooth n nl nm) : F.dphi.Smooth n nl nm := by
  refine ⟨fun l m => ⟨(contDiff_const.mul (h.diff l m).2).neg, contDiff_const.mul (h.diff l m).1⟩, fun l R => by simp [SModes.dphi],
    fun l m hl R => ?_⟩
  simp [SModes.dphi, (h.top l m hl R).1, (h.top l m hl R).2]

theorem contDiff_deriv_nat {f : ℝ → ℝ} {n : ℕ} (h : ContDiff ℝ (n + 1 : ℕ) f) : ContDiff ℝ n (deriv f) :=
  contDiff_iff_contDiffAt.mpr fun z => FD.contDiffAt_deriv (h.contDiffAt)

theorem SModes.Smooth.D {F : SModes} {n nl nm : ℕ} (h : F.Smooth (n + 1) nl nm) : F.D.Smooth n nl nm := by
  have e0 : ∀ u : ℝ → ℝ, (∀ R, u R = 0) → ∀ R, deriv u R = 0 := by
    intro u hu R
    have : u = fun _ => 0 := funext hu
    rw [this]; simp
  refine ⟨fun l m => ⟨contDiff_deriv_nat (h.diff l m).1, contDiff_deriv_nat (h.diff l m).2⟩, fun l => e0 _ (h.real l), fun l m hl R => ?_⟩
  exact ⟨e0 _ (fun R => (h.top l m hl R).1) R, e0 _ (fun R => (h.top l m hl R).2) R⟩

theorem SModes.hasDerivAt {F : SModes} {n nl nm : ℕ} (h : F.Smooth (n + 1) nl nm) (R θ φ : ℝ) :
    HasDerivAt (fun R => F.fn nl R θ φ) (F.D.fn nl R θ φ) R := by
  have hd : ∀ l m, HasDerivAt (F l m).1 (deriv (F l m).1 R) R ∧ HasDerivAt (F l m).2 (deriv (F l m).2 R) R := fun l m =>
    ⟨(((h.diff l m).1.differentiable (by simp)) R).hasDerivAt, (((h.diff l m).2.differentiable (by simp)) R).hasDerivAt⟩
  simp only [SModes.fn_eq]
  refine HasDerivAt.fun_sum fun l _ => ((hd l 0).1.const_mul _).add (HasDerivAt.const_mul _ (HasDerivAt.fun_sum fun m _ => ?_))
  exact ((hd l m).1.const_mul _).sub ((hd l m).2.const_mul _)

/-- `k` times differentiated coefficients -/
noncomputable def SModes.Dn (F : SModes) : ℕ → SModes
  | 0 => F
  | k + 1 => (F.Dn k).D

theorem SModes.Smooth.Dn {F : SModes} {n nl nm : ℕ} : ∀ k, F.Smooth (n + k) nl nm → (F.Dn k).Smooth n nl nm
  | 0, h => h
  | k + 1, h => by
    have := SModes.Smooth.Dn (n := n + 1) k (by rw [show n + 1 + k = n + (k + 1) by omega]; exact h)
    exact this.D

theorem SModes.iterDeriv {F : SModes} {nl nm : ℕ} (θ φ : ℝ) : ∀ k, F.Smooth k nl nm → ∀ R,
    iteratedDeriv k (fun R => F.fn nl R θ φ) R = (F.Dn k).fn nl R θ φ
  | 0, _, R => by simp [SModes.Dn]
  | k + 1, h, R => by
    have hk : F.Smooth k nl nm := ⟨fun l m => ⟨(h.diff l m).1.of_le (by norm_cast; omega), (h.diff l m).2.of_le (by norm_cast; omega)⟩, h.real, h.top⟩
    have e : iteratedDeriv k (fun R => F.fn nl R θ φ) = fun R => (F.Dn k).fn nl R θ φ := funext (SModes.iterDeriv θ φ k hk)
    rw [iteratedDeriv_succ, e]
    exact (SModes.hasDerivAt (n := 0) (SModes.Smooth.Dn (n := 0 + 1) k (by rw [show 0 + 1 + k = k + 1 by omega]; exact h)) R θ φ).deriv

theorem SModes.contDiff {F : SModes} {n nl nm : ℕ} (h : F.Smooth n nl nm) (θ φ : ℝ) : ContDiff ℝ n (fun R => F.fn nl R θ φ) := by
  simp only [SModes.fn_eq]
  refine ContDiff.sum fun l _ => (contDiff_const.mul (h.diff l 0).1).add (contDiff_const.mul (ContDiff.sum fun m _ => ?_))
  exact (contDiff_const.mul (h.diff l m).1).sub (contDiff_const.mul (h.diff l m).2)

theorem SModes.continuous {F : SModes} {n nl nm : ℕ} (h : F.Smooth n nl nm) : Continuous (fun y : ℝ × ℝ × ℝ => F.fn nl y.1 y.2.1 y.2.2) := by
  simp only [SModes.fn_eq]
  have hT : ∀ l m, Continuous (fun y : ℝ × ℝ × ℝ => ThN l m y.2.1) := fun l m => (contDiff_ThN l m).continuous.comp (by fun_prop)
  have h1 : ∀ l m, Continuous (fun y : ℝ × ℝ × ℝ => (F l m).1 y.1) := fun l m => (h.diff l m).1.continuous.comp continuous_fst
  have h2 : ∀ l m, Continuous (fun y : ℝ × ℝ × ℝ => (F l m).2 y.1) := fun l m => (h.diff l m).2.continuous.comp continuous_fst
  have hc : ∀ m : ℕ, Continuous (fun y : ℝ × ℝ × ℝ => Real.cos (m * y.2.2)) := fun m => by fun_prop
  have hs : ∀ m : ℕ, Continuous (fun y : ℝ × ℝ × ℝ => Real.sin (m * y.2.2)) := fun m => by fun_prop
  refine continuous_finsetSum _ fun l _ => ((hT l 0).mul (h1 l 0)).add (continuous_const.mul (continuous_finsetSum _ fun m _ => ?_))
  exact (((hT l m).mul (hc m)).mul (h1 l m)).sub (((hT l m).mul (hs m)).mul (h2 l m))

/-- the compactified radii and angles of a grid -/
def shellBox (lo up : ℝ) : Set (ℝ × ℝ × ℝ) := Set.Icc lo up ×ˢ Set.Icc 0 Real.pi ×ˢ Set.Icc 0 (2 * Real.pi)

theorem shellBox_compact (lo up : ℝ) : IsCompact (shellBox lo up) := isCompact_Icc.prod (isCompact_Icc.prod isCompact_Icc)

theorem bounded_on {u : ℝ × ℝ × ℝ → ℝ} {lo up : ℝ} (hu : ContinuousOn u (shellBox lo up)) :
    ∃ B, 0 ≤ B ∧ ∀ y ∈ shellBox lo up, |u y| ≤ B := by
  obtain ⟨B, hB⟩ := (shellBox_compact lo up).exists_bound_of_continuousOn hu
  exact ⟨max B 0, le_max_right _ _, fun y hy => (hB y hy).trans (le_max_left _ _)⟩

theorem SModes.bounded {F : SModes} {n nl nm : ℕ} (h : F.Smooth n nl nm) (lo up : ℝ) :
    ∃ B, 0 ≤ B ∧ ∀ R θ φ, (R, θ, φ) ∈ shellBox lo up → |F.fn nl R θ φ| ≤ B := by
  obtain ⟨B, h0, hB⟩ := bounded_on (lo := lo) (up := up) (SModes.continuous h).continuousOn
  exact ⟨B, h0, fun R θ φ hy => hB (R, θ, φ) hy⟩

/-! ### the finite-difference operators on a smooth profile -/

variable {E : Env CR} {P : ParamRec CR} {g : Grid CR} {q : Phys} {x : ℕ → ℝ} {A : ℕ → ℕ → ℕ → ℝ} {nx nl nlat nphi : ℕ}

theorem radial_smooth (hz : Sizes E.useCheb nx nl nlat nphi) (hc : E.useCheb = false) {lo up : ℝ} (hlu : lo < up) {u : ℝ → ℝ}
    (hu : ContDiff ℝ 8 u) {B : ℝ} (h7 : ∀ z ∈ Set.Icc lo up, |iteratedDeriv 7 u z| ≤ B) (h8 : ∀ z ∈ Set.Icc lo up, |iteratedDeriv 8 u z| ≤ B)
    {r : List CR} (hr : r = tab nx fun i => fin (u (radPt E.useCheb nx lo up i))) {i : ℕ} (hi : i < nx) :
    ∃ y1 y2, gv ((Grid.radialOf E (fin lo) (fin up) nx).derP r) i = fin y1 ∧
      gv ((Grid.radialOf E (fin lo) (fin up) nx).der2P r) i = fin y2 ∧
      |y1 - deriv u (radPt E.useCheb nx lo up i)| ≤ 2200 * B * ((up - lo) / ((nx : ℝ) - 1)) ^ 6 ∧
      |y2 - iteratedDeriv 2 u (radPt E.useCheb nx lo up i)| ≤ 18600 * B * ((up - lo) / ((nx : ℝ) - 1)) ^ 6 := by
  obtain ⟨h2, hW⟩ := hz.two
  have hmin := hz.nx_min
  unfold Grid.radialOf
  rw [hc] at hr hmin ⊢
  simp only [Bool.false_eq_true, if_false] at hmin ⊢
  have hx : ∀ i, (FD.mk' nx (fin lo) (fin up) E.ndebug).pt i = fin (radPt false nx lo up i) := fun i => by
    rw [C10_points nx h2 hW]; simp [radPt]
  obtain ⟨w1, a1, _, a3⟩ := C13_der_sixth_order nx (by omega) hW lo up hlu E.ndebug _ hx u B
    (fun z _ => (hu.of_le (by norm_num)).contDiffAt) h7 r (by rw [hr]; simp)
  obtain ⟨w2, b1, _, b3⟩ := C13_der2_sixth_order nx (by omega) hW lo up hlu E.ndebug _ hx u B
    (fun z _ => hu.contDiffAt) h8 r (by rw [hr]; simp)
  rw [← hr] at a1 b1
  rw [FD.der_eq _ (by show 7 ≤ nx; omega) hW (by rw [hr]; simp; rfl) (by rw [hr]; simp; rfl)] at a1
  rw [FD.der2_eq _ (by show 8 ≤ nx; omega) hW (by rw [hr]; simp; rfl) (by rw [hr]; simp; rfl)] at b1
  simp only [Except.ok.injEq] at a1 b1
  obtain ⟨y1, c1, c2⟩ := a3 i hi
  obtain ⟨y2, d1, d2⟩ := b3 i hi
  refine ⟨y1, y2, ?_, ?_, c2, d2⟩
  · show gv (tab _ _) i = _
    rw [a1, c1]
  · show gv (tab _ _) i = _
    rw [b1, d1]

/-- the radial operators of the grid differentiate every radial line of a mode sum up to `ε` -/
def LineErr (E : Env CR) (P : ParamRec CR) (q : Phys) (F : SModes) (ε : ℝ) : Prop :=
  ∀ θ ∈ Set.Icc 0 Real.pi, ∀ φ ∈ Set.Icc 0 (2 * Real.pi), ∀ i, i < P.nx → ∃ y1 y2,
    gv ((Grid.radialOf E (fin q.lo) (fin q.up) P.nx).derP (tab P.nx fun i => fin (F.fn P.nl (radPt E.useCheb P.nx q.lo q.up i) θ φ))) i = fin y1 ∧
    gv ((Grid.radialOf E (fin q.lo) (fin q.up) P.nx).der2P (tab P.nx fun i => fin (F.fn P.nl (radPt E.useCheb P.nx q.lo q.up i) θ φ))) i = fin y2 ∧
    |y1 - F.D.fn P.nl (radPt E.useCheb P.nx q.lo q.up i) θ φ| ≤ ε ∧ |y2 - F.D.D.fn P.nl (radPt E.useCheb P.nx q.lo q.up i) θ φ| ≤ ε

theorem LineErr.of_fd (hz : Sizes E.useCheb P.nx P.nl P.nlat P.nphi) (hc : E.useCheb = false) (hlu : q.lo < q.up) {F : SModes}
    {nm : ℕ} (hF : F.Smooth 8 P.nl nm) {B : ℝ} (hB : 0 ≤ B) (h7 : ∀ R θ φ, (R, θ, φ) ∈ shellBox q.lo q.up → |(F.Dn 7).fn P.nl R θ φ| ≤ B)
    (h8 : ∀ R θ φ, (R, θ, φ) ∈ shellBox q.lo q.up → |(F.Dn 8).fn P.nl R θ φ| ≤ B) :
    LineErr E P q F (18600 * B * ((q.up - q.lo) / ((P.nx : ℝ) - 1)) ^ 6) := by
  intro θ hθ φ hφ i hi
  have hF7 : F.Smooth 7 P.nl nm := ⟨fun l m => ⟨(hF.diff l m).1.of_le (by norm_cast), (hF.diff l m).2.of_le (by norm_cast)⟩, hF.real, hF.top⟩
  have hF2 : F.Smooth 2 P.nl nm := ⟨fun l m => ⟨(hF.diff l m).1.of_le (by norm_cast), (hF.diff l m).2.of_le (by norm_cast)⟩, hF.real, hF.top⟩
  obtain ⟨y1, y2, b1, b2, b3, b4⟩ := radial_smooth hz hc hlu (u := fun R => F.fn P.nl R θ φ) (by exact_mod_cast SModes.contDiff hF θ φ)
    (B := B) (fun z hz => by rw [SModes.iterDeriv θ φ 7 hF7]; exact h7 z θ φ ⟨hz, hθ, hφ⟩)
    (fun z hz => by rw [SModes.iterDeriv θ φ 8 hF]; exact h8 z θ φ ⟨hz, hθ, hφ⟩) rfl hi
  rw [SModes.iterDeriv θ φ 2 hF2] at b4
  rw [(SModes.hasDerivAt (n := 7) hF _ θ φ).deriv] at b3
  refine ⟨y1, y2, b1, b2, b3.trans ?_, b4⟩
  refine mul_le_mul_of_nonneg_right (by linarith) ?_
  have := pow_nonneg (sq_nonneg ((q.up - q.lo) / ((P.nx : ℝ) - 1))) 3
  rwa [← pow_mul] at this

/-- `set_partial_r` and `set_partial2_r` on an array holding a smooth mode sum -/
theorem HoldsC.radial (hX : Exact E P g q x A) (hL : 0 < q.L) {f : List CR} {F : SModes} {ε : ℝ} (hE : LineErr E P q F ε)
    (hf : HoldsC E P q x g f F.at)
    {dr drr : List CR} (e1 : ∀ z, z.length = f.length → g.set_partial_r f z = .ok dr)
    (e2 : ∀ z, z.length = f.length → g.set_partial2_r f z = .ok drr) {ix it ip : ℕ} (hix : ix < P.nx) (hit : it < P.nlat)
    (hip : ip < P.nphi) {R θ φ : ℝ} (hR : R = radPt E.useCheb P.nx q.lo q.up ix) (hθ : θ = Real.arccos (x it)) (hφ : φ = phiN P.nphi ip) :
    ∃ y1 y2 : ℝ, g.d.at3 dr ix it ip = fin (y1 * (1 - R / q.L) ^ 2) ∧
      g.d.at3 drr ix it ip = fin (-2 / q.L * (1 - R / q.L) ^ 3 * y1 + ((1 - R / q.L) ^ 2) ^ 2 * y2) ∧
      |y1 - F.D.fn P.nl R θ φ| ≤ ε ∧ |y2 - F.D.D.fn P.nl R θ φ| ≤ ε := by
  have hg := hX.setup.grid
  rw [hX.phys.L, hX.phys.lo, hX.phys.up] at hg
  obtain ⟨hw, hdd, hcl, hr, _⟩ := Grid.wf_of_ctor hX.setup.sized hX.setup.sizes hg
  have ht : g.d.total = P.nx * P.nlat * P.nphi := by rw [hdd]; rfl
  have k1 := hw.set_partial_r_eq (hf.1.trans ht.symm) (hf.1.trans ht.symm)
  have k2 := hw.set_partial2_r_eq (hf.1.trans ht.symm) (hf.1.trans ht.symm)
  rw [e1 f rfl] at k1
  rw [e2 f rfl] at k2
  injection k1 with k1
  injection k2 with k2
  have hxe : g.d.nx = P.nx := by rw [hdd]
  have hin : g.d.InR ix it ip := ⟨by rw [hdd]; exact hix, by rw [hdd]; exact hit, by rw [hdd]; exact hip⟩
  have hline : g.d.lineOf f it ip = tab P.nx fun i => fin (F.fn P.nl (radPt E.useCheb P.nx q.lo q.up i) θ φ) := by
    unfold Dims.lineOf
    rw [hxe, hθ, hφ]
    exact tab_congr fun i hi => hf.2 i it ip hi hit hip
  have hθm : θ ∈ Set.Icc 0 Real.pi := by rw [hθ]; exact ⟨Real.arccos_nonneg _, Real.arccos_le_pi _⟩
  have hφm : φ ∈ Set.Icc 0 (2 * Real.pi) := by
    rw [hφ]
    unfold phiN
    have hn : (0 : ℝ) < P.nphi := by exact_mod_cast (by omega : 0 < P.nphi)
    have hi : (ip : ℝ) ≤ P.nphi := by exact_mod_cast hip.le
    have := Real.pi_pos
    refine ⟨by positivity, ?_⟩
    rw [div_le_iff₀ hn]
    exact mul_le_mul_of_nonneg_left hi (by positivity)
  obtain ⟨y1, y2, b1, b2, b3, b4⟩ := hE θ hθm φ hφm ix hix
  rw [← hline] at b1 b2
  rw [← hR] at b3 b4
  have hp : g.radial.ptV ix = fin R := by
    rw [hr, hR]; exact radialOf_pt hX.setup.sizes.two.1 hX.setup.sizes.two.2 q.lo q.up hix
  have d1 : g.dRV ix = fin ((1 - R / q.L) ^ 2) := by
    unfold Grid.dRV; rw [hp, hcl]; simp [hL.ne']
  have d2 : g.d2RV ix = fin (-2 / q.L * (1 - R / q.L) ^ 3) := by
    unfold Grid.d2RV; rw [hp, hcl]; simp [hL.ne']
  refine ⟨y1, y2, ?_, ?_, b3, b4⟩
  · rw [k1]
    unfold Grid.prP
    rw [hw.ok.at3_ofLines _ hin]
    unfold Grid.oprP
    rw [gv_tab (by rw [hxe]; exact hix), hr, b1, d1, fin_mul]
  · rw [k2]
    unfold Grid.p2rP
    rw [hw.ok.at3_ofLines _ hin]
    unfold Grid.op2rP
    rw [gv_tab (by rw [hxe]; exact hix), hr, b1, b2, d1, d2]
    simp

/-! ### error of the time derivative -/

theorem vv_error {M a r θ K y κ B δ D : ℝ} {j jn : Jet} {kin pot : ℝ → ℝ} (hr : 0 < r) (hM : 0 < M)
    (e1 : eomLhs kin pot j.psi (box M a r θ j) (grad2 M a r θ j) = 0)
    (e2 : eomLhs kin pot j.psi (box M a r θ { jn with vv := y }) (grad2 M a r θ { jn with vv := y }) = 0)
    (hv : jn.v = j.v) (hphi : jn.phi = j.phi) (hlap : jn.lap = j.lap) (hang : jn.ang = j.ang)
    (dr : |jn.r - j.r| ≤ δ) (dvr : |jn.vr - j.vr| ≤ δ) (drr : |jn.rr - j.rr| ≤ δ) (drphi : |jn.rphi - j.rphi| ≤ δ)
    (bv : |j.v| ≤ B) (bphi : |j.phi| ≤ B) (br : |j.r| ≤ B) (hδ : δ ≤ D) (hK : |deriv kin j.psi / kin j.psi| ≤ K)
    (c1 : |4 * M * r / Sig a r θ| ≤ κ) (c2 : |Del M a r / Sig a r θ| ≤ κ) (c3 : |2 * a / Sig a r θ| ≤ κ)
    (c4 : |2 * (r - M) / Sig a r θ| ≤ κ) : |y - j.vv| ≤ κ * (4 + K / 2 * (4 * B + D)) * δ := by
  have hS := Sig_pos' (a := a) (θ := θ) hr
  have hN : 1 ≤ 1 + 2 * M * r / Sig a r θ := by
    have : 0 < 2 * M * r / Sig a r θ := by positivity
    linarith
  obtain ⟨N, hNe⟩ : ∃ N, N = 1 + 2 * M * r / Sig a r θ := ⟨_, rfl⟩
  unfold eomLhs box grad2 at e1 e2
  simp only [hv, hphi, hlap, hang] at e2
  rw [← hNe] at e1 e2 hN
  generalize 4 * M * r / Sig a r θ = A1 at *
  generalize Del M a r / Sig a r θ = A2 at *
  generalize 2 * a / Sig a r θ = A3 at *
  generalize 2 * (r - M) / Sig a r θ = A4 at *
  generalize deriv kin j.psi / kin j.psi = k at *
  have hδ0 : 0 ≤ δ := (abs_nonneg _).trans dr
  have hB0 : 0 ≤ B := (abs_nonneg _).trans bv
  have hκ0 : 0 ≤ κ := (abs_nonneg _).trans c1
  have hK0 : 0 ≤ K := (abs_nonneg _).trans hK
  have key : N * (y - j.vv) = A1 * (jn.vr - j.vr) + A2 * (jn.rr - j.rr) + A3 * (jn.rphi - j.rphi) + A4 * (jn.r - j.r)
      + 1 / 2 * (k * (A1 * (j.v * (jn.r - j.r)) + A2 * ((jn.r - j.r) * (2 * j.r + (jn.r - j.r))) + A3 * (j.phi * (jn.r - j.r)))) := by
    linear_combination e1 - e2
  have m : ∀ {p s P S : ℝ}, |p| ≤ P → |s| ≤ S → |p * s| ≤ P * S := fun {p s P S} h1 h2 => by
    rw [abs_mul]; exact mul_le_mul h1 h2 (abs_nonneg _) ((abs_nonneg _).trans h1)
  have ad : ∀ {p s P S : ℝ}, |p| ≤ P → |s| ≤ S → |p + s| ≤ P + S := fun {p s P S} h1 h2 => (abs_add_le _ _).trans (add_le_add h1 h2)
  have h2r : |2 * j.r + (jn.r - j.r)| ≤ 2 * B + D := ad (m (by norm_num : |(2:ℝ)| ≤ 2) br) (dr.trans hδ)
  have quad := m hK (ad (ad (m c1 (m bv dr)) (m c2 (m dr h2r))) (m c3 (m bphi dr)))
  have tot := ad (ad (ad (ad (m c1 dvr) (m c2 drr)) (m c3 drphi)) (m c4 dr)) (m (by norm_num : |(1/2:ℝ)| ≤ 1/2) quad)
  rw [← key, abs_mul, abs_of_pos (by linarith)] at tot
  have : |y - j.vv| ≤ N * |y - j.vv| := le_mul_of_one_le_left (abs_nonneg _) hN
  refine this.trans (tot.trans (le_of_eq ?_))
  ring

/-- bounds of the Kerr coefficients outside a ball -/
theorem coef_bounds {M a r θ ρ : ℝ} (hρ : 0 < ρ) (hr : ρ ≤ r) (hM : 0 < M) : ∃ κ, κ = 4 * M / ρ + (1 + 2 * M / ρ + a ^ 2 / ρ ^ 2) + 2 * |a| / ρ ^ 2
      + (2 / ρ + 2 * M / ρ ^ 2) ∧
    |4 * M * r / Sig a r θ| ≤ κ ∧ |Del M a r / Sig a r θ| ≤ κ ∧ |2 * a / Sig a r θ| ≤ κ ∧ |2 * (r - M) / Sig a r θ| ≤ κ := by
  have hr0 : 0 < r := hρ.trans_le hr
  have hS : r ^ 2 ≤ Sig a r θ := by unfold Sig; nlinarith [sq_nonneg (a * Real.cos θ)]
  have hS0 : 0 < Sig a r θ := lt_of_lt_of_le (by positivity) hS
  have i1 : r / Sig a r θ ≤ 1 / ρ := by
    rw [div_le_div_iff₀ hS0 hρ]; nlinarith
  have i2 : 1 / Sig a r θ ≤ 1 / ρ ^ 2 := by
    apply one_div_le_one_div_of_le (by positivity)
    nlinarith
  have i3 : r ^ 2 / Sig a r θ ≤ 1 := by rw [div_le_one hS0]; exact hS
  have p1 : 0 < r / Sig a r θ := by positivity
  have p2 : 0 < 1 / Sig a r θ := by positivity
  have p3 : 0 < r ^ 2 / Sig a r θ := by positivity
  have b1 : |4 * M * r / Sig a r θ| ≤ 4 * M / ρ := by
    rw [abs_of_pos (by positivity), mul_div_assoc, div_eq_mul_one_div (4 * M)]
    exact mul_le_mul_of_nonneg_left i1 (by positivity)
  have b2 : |Del M a r / Sig a r θ| ≤ 1 + 2 * M / ρ + a ^ 2 / ρ ^ 2 := by
    have e : Del M a r / Sig a r θ = r ^ 2 / Sig a r θ - 2 * M * (r / Sig a r θ) + a ^ 2 * (1 / Sig a r θ) := by unfold Del; ring
    have h1 : 2 * M * (r / Sig a r θ) ≤ 2 * M / ρ := by
      rw [div_eq_mul_one_div (2 * M)]; exact mul_le_mul_of_nonneg_left i1 (by positivity)
    have h2 : a ^ 2 * (1 / Sig a r θ) ≤ a ^ 2 / ρ ^ 2 := by
      rw [div_eq_mul_one_div (a ^ 2)]; exact mul_le_mul_of_nonneg_left i2 (by positivity)
    have h3 : 0 < 2 * M * (r / Sig a r θ) := by positivity
    have h4 : 0 ≤ a ^ 2 * (1 / Sig a r θ) := by positivity
    rw [e, abs_le]
    constructor <;> linarith
  have b3 : |2 * a / Sig a r θ| ≤ 2 * |a| / ρ ^ 2 := by
    rw [abs_div, abs_mul, abs_two, abs_of_pos hS0, div_eq_mul_one_div, div_eq_mul_one_div (2 * |a|)]
    exact mul_le_mul_of_nonneg_left i2 (by positivity)
  have b4 : |2 * (r - M) / Sig a r θ| ≤ 2 / ρ + 2 * M / ρ ^ 2 := by
    have e : 2 * (r - M) / Sig a r θ = 2 * (r / Sig a r θ) - 2 * M * (1 / Sig a r θ) := by ring
    have h1 : 2 * (r / Sig a r θ) ≤ 2 / ρ := by rw [div_eq_mul_one_div 2 ρ]; linarith
    have h2 : 2 * M * (1 / Sig a r θ) ≤ 2 * M / ρ ^ 2 := by
      rw [div_eq_mul_one_div (2 * M)]; exact mul_le_mul_of_nonneg_left i2 (by positivity)
    have h3 : 0 < 2 * M * (1 / Sig a r θ) := by positivity
    rw [e, abs_le]
    constructor <;> linarith
  have q1 : 0 ≤ 4 * M / ρ := by positivity
  have q2 : 0 ≤ 1 + 2 * M / ρ + a ^ 2 / ρ ^ 2 := by positivity
  have q3 : 0 ≤ 2 * |a| / ρ ^ 2 := by positivity
  have q4 : 0 ≤ 2 / ρ + 2 * M / ρ ^ 2 := by positivity
  exact ⟨_, rfl, by linarith, by linarith, by linarith, by linarith⟩

end SFK
