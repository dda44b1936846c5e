import Verif.Lemmas.Setup
import Mathlib.Topology.Algebra.Order.Field
import Mathlib.Analysis.Calculus.Deriv.Inv
import Mathlib.Analysis.Calculus.Deriv.Pow
import Mathlib.Tactic.FunProp
/-
C38-C43, C70: background coefficients, equation of motion, characteristic speeds, energy density.
-/
namespace SFK
open Scalar CR Kerr Filter Topology

variable {E : Env CR} {P : ParamRec CR} {g : Grid CR} {e : Eom CR} {q : Phys}

/-! ## C38 -/

/-- real version of the coefficient record, in terms of `u=1/r` -/
noncomputable def coefU (M a θ u : ℝ) : Coef ℝ :=
  let S := Su a u θ
  let q := 1 / (1 + 2 * M * u / S)
  ⟨q, 2 * M * u ^ 2 / S * q, 2 * (u - M * u ^ 2) / S * q, 4 * M * u / S * q, Du M a u / S * q, 2 * a * u ^ 2 / S * q,
    u ^ 2 / S * q, -(1 + 2 * M * u / S) * q, 4 * M * u / S * q, Du M a u / S * q, 2 * a * u ^ 2 / S * q, u ^ 2 / S * q,
    1 / 2 * (1 + 2 * M * u / S), 2 * M * u / S, 1 / 2 * ((1 + 2 * M * u + (a * u) ^ 2) / S - 4 * M * u / (2 * M * u + S)),
    a * u ^ 2 / S, 1 / 2 * u ^ 2 / S⟩

theorem coefR_eq_map (M a u θ : ℝ) : coefR M a u θ = (coefU M a θ u).map fin := rfl

theorem Coef.map_fin_inj {c d : Coef ℝ} (h : c.map fin = d.map fin) : c = d := by
  cases c; cases d
  simpa [Coef.map] using h

theorem coefU_continuous {M a θ : ℝ} : ∀ π ∈ (Coef.projs : List (Coef ℝ → ℝ)), ContinuousAt (fun u => π (coefU M a θ u)) 0 := by
  have hS : ContinuousAt (fun u => Su a u θ) 0 := by unfold Su; fun_prop
  have hD : ContinuousAt (fun u => Du M a u) 0 := by unfold Du; fun_prop
  have hS0 : Su a 0 θ ≠ 0 := (Su_pos _ _ _).ne'
  have h1 : 1 + 2 * M * 0 / Su a 0 θ ≠ 0 := by simp
  have h3 : 2 * M * 0 + Su a 0 θ ≠ 0 := by simpa using hS0
  have hu : ContinuousAt (fun u : ℝ => u) 0 := continuousAt_id
  have hc : ∀ c : ℝ, ContinuousAt (fun _ : ℝ => c) 0 := fun c => continuousAt_const
  have hs : ContinuousAt (fun u => 2 * M * u / Su a u θ) 0 := ((hc _).mul hu).div hS hS0
  have hs2 : ContinuousAt (fun u => 4 * M * u / Su a u θ) 0 := ((hc _).mul hu).div hS hS0
  have hq : ContinuousAt (fun u => 1 / (1 + 2 * M * u / Su a u θ)) 0 := (hc 1).div ((hc 1).add hs) h1
  intro π hπ
  simp only [Coef.projs, List.mem_cons, List.not_mem_nil, or_false] at hπ
  rcases hπ with rfl | rfl | rfl | rfl | rfl | rfl | rfl | rfl | rfl | rfl | rfl | rfl | rfl | rfl | rfl | rfl | rfl
  · exact hq
  · exact (((hc _).mul (hu.pow 2)).div hS hS0).mul hq
  · exact ((((hc 2)).mul (hu.sub ((hc M).mul (hu.pow 2)))).div hS hS0).mul hq
  · exact hs2.mul hq
  · exact (hD.div hS hS0).mul hq
  · exact (((hc _).mul (hu.pow 2)).div hS hS0).mul hq
  · exact ((hu.pow 2).div hS hS0).mul hq
  · exact ((hc 1).add hs).neg.mul hq
  · exact hs2.mul hq
  · exact (hD.div hS hS0).mul hq
  · exact (((hc _).mul (hu.pow 2)).div hS hS0).mul hq
  · exact ((hu.pow 2).div hS hS0).mul hq
  · exact (hc _).mul ((hc 1).add hs)
  · exact hs
  · exact (hc _).mul (((((hc 1).add ((hc _).mul hu)).add (((hc a).mul hu).pow 2)).div hS hS0).sub
      (((hc _).mul hu).div (((hc _).mul hu).add hS) h3))
  · exact (((hc _).mul (hu.pow 2)).div hS hS0)
  · exact (((hc _).mul (hu.pow 2)).div hS hS0)

theorem coefU_limit {M a θ : ℝ} (hM : 0 < M) : ∀ π ∈ (Coef.projs : List (Coef ℝ → ℝ)),
    Tendsto (fun r => π (docCoef M a r θ)) atTop (𝓝 (π (coefU M a θ 0))) := by
  intro π hπ
  have h := (coefU_continuous (M := M) (a := a) (θ := θ) π hπ).tendsto.comp (tendsto_inv_atTop_zero (𝕜 := ℝ))
  refine h.congr' ?_
  filter_upwards [eventually_gt_atTop 0] with r hr
  have := docCoef_eq (a := a) hM hr θ
  rw [coefR_eq_map] at this
  show π (coefU M a θ r⁻¹) = _
  rw [← Coef.map_fin_inj this, one_div]

/-- coefficients at a grid point in exact arithmetic -/
theorem Eom.Of.coef_realB (hS : BuiltGrid E P g) (hq : q.Is P) (ho : q.Ok) (he : Eom.Of g P e) {ix it ip : ℕ} (hx : ix < P.nx)
    (ht : it < P.nlat) (hp : ip < P.nphi) {R θ : ℝ} {φ : CR} (hc : g.getR_th_ph ix it ip = .ok ⟨fin R, fin θ, φ⟩) :
    (0 < R → 1 / 10 ^ 16 < q.L - R → 0 < physR q.L R ∧
      g.d.at3 e.coef ix it ip = (docCoef q.M q.a (physR q.L R) θ).map fin) ∧
    (R = q.L → g.d.at3 e.coef ix it ip = (coefU q.M q.a θ 0).map fin) := by
  have h := he.coef_atB hS hx ht hp hc
  rw [hq.M, hq.a, hq.L] at h
  constructor
  · intro h0 h1
    have h2 : R < q.L := by have : (0:ℝ) < 1 / 10 ^ 16 := by positivity
                            linarith
    have hr : 0 < physR q.L R := by
      unfold physR
      have : 0 < 1 - R / q.L := by rw [sub_pos, div_lt_one ho.L_pos]; exact h2
      positivity
    refine ⟨hr, ?_⟩
    rw [h]
    dsimp only
    rw [invR_eq ho.L_pos h0 h2 h1, coefOf_eq ho.M_pos ho.spin ho.noRound (by positivity), docCoef_eq ho.M_pos hr]
  · rintro rfl
    rw [h]
    dsimp only
    rw [invR_inf, coefOf_eq ho.M_pos ho.spin ho.noRound le_rfl, coefR_eq_map]

theorem Eom.Of.coef_real (hS : Setup E P g) (hq : q.Is P) (ho : q.Ok) (he : Eom.Of g P e) {ix it ip : ℕ} (hx : ix < P.nx)
    (ht : it < P.nlat) (hp : ip < P.nphi) {R θ : ℝ} {φ : CR} (hc : g.getR_th_ph ix it ip = .ok ⟨fin R, fin θ, φ⟩) :
    (0 < R → 1 / 10 ^ 16 < q.L - R → 0 < physR q.L R ∧
      g.d.at3 e.coef ix it ip = (docCoef q.M q.a (physR q.L R) θ).map fin) ∧
    (R = q.L → g.d.at3 e.coef ix it ip = (coefU q.M q.a θ 0).map fin) := he.coef_realB hS.toBuiltGrid hq ho hx ht hp hc

/-- C38: the constructor succeeds, and at every grid point with stored coordinates `(R,θ)` the 17 stored coefficients are
finite and equal to the documented ones at the physical radius; the normalisation is in `(0,1]`; at infinity (`R=L`) each
is the limit of the documented one as `r → ∞`. -/
theorem C38_coefficients (hS : BuiltGrid E P g) (hq : q.Is P) (ho : q.Ok) : ∃ e, Eom.mk' g P = .ok e ∧
    ∀ ix it ip, ix < P.nx → it < P.nlat → ip < P.nphi → ∀ (R θ : ℝ) (φ : CR),
      g.getR_th_ph ix it ip = .ok ⟨fin R, fin θ, φ⟩ →
      (0 < R → 1 / 10 ^ 16 < q.L - R → g.d.at3 e.coef ix it ip = (docCoef q.M q.a (physR q.L R) θ).map fin ∧
        0 < (docCoef q.M q.a (physR q.L R) θ).pre ∧ (docCoef q.M q.a (physR q.L R) θ).pre ≤ 1) ∧
      (R = q.L → ∃ c, g.d.at3 e.coef ix it ip = c.map fin ∧ 0 < c.pre ∧ c.pre ≤ 1 ∧
        ∀ π ∈ (Coef.projs : List (Coef ℝ → ℝ)), Tendsto (fun r => π (docCoef q.M q.a r θ)) atTop (𝓝 (π c))) := by
  obtain ⟨e, h1, he⟩ := Eom.Of.existsB hS
  refine ⟨e, h1, fun ix it ip hx ht hp R θ φ hc => ⟨fun h0 h1 => ?_, fun h => ?_⟩⟩
  · obtain ⟨hr, h2⟩ := (he.coef_realB hS hq ho hx ht hp hc).1 h0 h1
    have hM := ho.M_pos
    have hs : 0 < Sig q.a (physR q.L R) θ := by unfold Sig; positivity
    have h3 : 0 < 2 * q.M * physR q.L R / Sig q.a (physR q.L R) θ := by positivity
    refine ⟨h2, ?_, ?_⟩
    · show 0 < 1 / (1 + 2 * q.M * physR q.L R / Sig q.a (physR q.L R) θ)
      positivity
    · show 1 / (1 + 2 * q.M * physR q.L R / Sig q.a (physR q.L R) θ) ≤ 1
      rw [div_le_one (by positivity)]
      linarith
  · refine ⟨coefU q.M q.a θ 0, (he.coef_realB hS hq ho hx ht hp hc).2 h, ?_, ?_, coefU_limit ho.M_pos⟩
    · simp [coefU]
    · simp [coefU]

/-! ## C40, C70: kinetic prefactor and potential -/

theorem kin_deriv {km1 k0 k1 k2 x : ℝ} (hx : x ≠ -1) :
    HasDerivAt (Kerr.kin km1 k0 k1 k2) (-km1 / (x + 1) ^ 2 + k1 + k2 * x) x := by
  have h1 : 1 + x ≠ 0 := by intro h; apply hx; linarith
  have h2 : HasDerivAt (fun y => km1 / (1 + y)) (-km1 / (x + 1) ^ 2) x := by
    have h := (hasDerivAt_const x km1).div ((hasDerivAt_id x).const_add 1) h1
    refine h.congr_deriv ?_
    simp only [id]
    rw [add_comm x 1]
    ring
  have h3 : HasDerivAt (fun y => k1 * y) k1 x := by simpa using (hasDerivAt_id x).const_mul k1
  have h4 : HasDerivAt (fun y => k2 / 2 * y ^ 2) (k2 * x) x := by
    refine ((hasDerivAt_pow 2 x).const_mul (k2 / 2)).congr_deriv ?_
    simp; ring
  have h := ((h2.add (hasDerivAt_const x k0)).add h3).add h4
  refine h.congr_deriv ?_
  ring

theorem pot_deriv (v2 v3 v4 x : ℝ) : HasDerivAt (Kerr.pot v2 v3 v4) (v2 * x + v3 / 2 * x ^ 2 + v4 / 6 * x ^ 3) x := by
  have h := (((hasDerivAt_pow 2 x).const_mul (v2 / 2)).add ((hasDerivAt_pow 3 x).const_mul (v3 / 6))).add
    ((hasDerivAt_pow 4 x).const_mul (v4 / 24))
  refine h.congr_deriv ?_
  simp
  ring

/-- parameters held by the object -/
theorem Eom.Of.par (hS : Setup E P g) (hq : q.Is P) (he : Eom.Of g P e) : e.km1 = fin q.km1 ∧ e.k0 = fin q.k0 ∧
    e.k1 = fin q.k1 ∧ e.k2 = fin q.k2 ∧ e.v2 = fin q.V2 ∧ e.v3 = fin q.V3 ∧ e.v4 = fin q.V4 ∧ e.dt = fin q.dt := by
  obtain ⟨s, _, rfl⟩ := he.eq hS
  exact ⟨hq.km1, hq.k0, hq.k1, hq.k2, hq.V2, hq.V3, hq.V4, hq.dt⟩

section
variable (hS : Setup E P g) (hq : q.Is P) (he : Eom.Of g P e)
include hS hq he

theorem Eom.Of.kVal {x : ℝ} (hx : x ≠ -1) : e.kVal (fin x) = fin (q.kin x) := by
  obtain ⟨h1, h2, h3, h4, _⟩ := he.par hS hq
  have hx' : x + 1 ≠ 0 := by intro h; apply hx; linarith
  unfold Eom.kVal
  rw [h1, h2, h3, h4]
  simp only [fin_ofNat_one, fin_ofNat', fin_add, fin_div _ _ hx', fin_mul, fin_pown, fin_div _ _ (two_ne_zero (α := ℝ)), fin_inj]
  unfold Phys.kin Kerr.kin
  rw [add_comm 1 x]
  ring

theorem Eom.Of.vVal (x : ℝ) : e.vVal (fin x) = fin (q.pot x) := by
  obtain ⟨_, _, _, _, h1, h2, h3, _⟩ := he.par hS hq
  unfold Eom.vVal
  rw [h1, h2, h3]
  simp [Phys.pot, Kerr.pot]

theorem Eom.Of.inverseK {x : ℝ} (hx : x ≠ -1) (hk : q.kin x ≠ 0) : e.inverseK (fin x) = fin (1 / q.kin x) := by
  have h := he.kVal hS hq hx
  unfold Eom.kVal at h
  unfold Eom.inverseK
  rw [h, fin_ofNat_one, fin_div _ _ hk]

theorem Eom.Of.kprime {x : ℝ} (hx : x ≠ -1) : e.kprime (fin x) = fin (deriv q.kin x) := by
  obtain ⟨h1, h2, h3, h4, _⟩ := he.par hS hq
  have hx' : x + 1 ≠ 0 := by intro h; apply hx; linarith
  unfold Eom.kprime
  rw [h1, h3, h4]
  simp only [fin_ofNat_one, fin_add, fin_pown, fin_neg, fin_div _ _ (pow_ne_zero 2 hx'), fin_mul, fin_inj]
  exact (kin_deriv hx).deriv.symm

theorem Eom.Of.vprime {x : ℝ} (hx : x ≠ -1) (hk : q.kin x ≠ 0) :
    e.vprime (fin x) = fin (1 / q.kin x * deriv q.pot x) := by
  obtain ⟨_, _, _, _, h1, h2, h3, _⟩ := he.par hS hq
  unfold Eom.vprime
  rw [h1, h2, h3, he.inverseK hS hq hx hk]
  simp only [fin_ofNat', fin_mul, fin_pown, fin_add, fin_div _ _ (two_ne_zero (α := ℝ)),
    fin_div _ _ (show (6:ℝ) ≠ 0 by norm_num), fin_inj]
  rw [show deriv q.pot x = _ from (pot_deriv _ _ _ x).deriv]

/-- C40: the `k'` (lines 180-184) and `V'/k` (185-189) of the evolution are finite and are the derivative of the `k` (331-336),
and the derivative of the `V` (337-341) divided by `k`, of the energy density, at every field value other than the pole. -/
theorem C40_derivatives_consistent {x : ℝ} (hx : x ≠ -1) : ∃ kd vd : ℝ, ∃ K V : ℝ → ℝ,
    (∀ y, y ≠ -1 → e.kVal (fin y) = fin (K y)) ∧ (∀ y, e.vVal (fin y) = fin (V y)) ∧
    HasDerivAt K kd x ∧ HasDerivAt V vd x ∧ e.kprime (fin x) = fin kd ∧
    (K x ≠ 0 → e.inverseK (fin x) = fin (1 / K x) ∧ e.vprime (fin x) = fin (vd / K x)) := by
  refine ⟨deriv q.kin x, deriv q.pot x, q.kin, q.pot, fun y hy => he.kVal hS hq hy, he.vVal hS hq, ?_, ?_,
    he.kprime hS hq hx, fun hk => ⟨he.inverseK hS hq hx hk, ?_⟩⟩
  · exact (kin_deriv hx).differentiableAt.hasDerivAt
  · exact (pot_deriv _ _ _ x).differentiableAt.hasDerivAt
  · rw [he.vprime hS hq hx hk]
    congr 1
    ring

/-- At the field value `-1` the evolution's coefficients are not finite, even when `km1=0` (the code computes `0/0`). -/
theorem C40_pole_even_without_km1 : e.kprime (fin (-1)) = bad ∧ e.kVal (fin (-1)) = bad ∧ e.vprime (fin (-1)) = bad := by
  obtain ⟨h1, h2, h3, h4, h5, h6, h7, _⟩ := he.par hS hq
  have a1 : (fin (-1) + 1 : CR) = fin 0 := by rw [fin_ofNat_one, fin_add]; norm_num
  have a2 : ∀ y : ℝ, (fin y / pown (fin 0) 2 : CR) = bad := fun y => by rw [fin_pown]; norm_num
  have a3 : ∀ c : CR, (bad + c : CR) = bad := fun c => rfl
  have a4 : ∀ y, (fin y + bad : CR) = bad := fun c => rfl
  have a5 : ∀ y, (fin y / bad : CR) = bad := fun c => rfl
  have a6 : ∀ c : CR, (bad * c : CR) = bad := fun c => rfl
  refine ⟨?_, ?_, ?_⟩
  · unfold Eom.kprime
    rw [a1, h1, fin_neg, a2, a3, a3]
  · unfold Eom.kVal
    rw [a1, h1, h2, fin_div_zero, a4, a3, a3]
  · unfold Eom.vprime Eom.inverseK
    rw [a1, h1, h2, fin_div_zero, a4, a3, a3, fin_ofNat_one, a5, a6]

/-- C70, proved part: without `km1` and `k2` the kinetic prefactor of the solver is the one documented in the run script. -/
theorem C70_documented_prefactor_partial (h1 : q.km1 = 0) (h2 : q.k2 = 0) {x : ℝ} (hx : x ≠ -1) :
    e.kVal (fin x) = fin (Kerr.kinDoc q.km1 q.k0 q.k1 q.k2 x) := by
  rw [he.kVal hS hq hx]
  simp [Phys.kin, Kerr.kin, Kerr.kinDoc, h1, h2]

/-- C70 fails otherwise: whenever `km1` or `k2` is non-zero there is a field value (other than the poles 0 and -1) at which the
solver's prefactor is not the documented one. -/
theorem C70_prefactor_differs (h : q.km1 ≠ 0 ∨ q.k2 ≠ 0) : ∃ x : ℝ, x ≠ 0 ∧ x ≠ -1 ∧
    e.kVal (fin x) ≠ fin (Kerr.kinDoc q.km1 q.k0 q.k1 q.k2 x) := by
  by_contra hc
  push Not at hc
  have key : ∀ x : ℝ, x ≠ 0 → x ≠ -1 → q.km1 / (1 + x) + q.k2 / 2 * x ^ 2 = q.km1 / x + q.k2 * x ^ 2 := by
    intro x h0 h1
    have := hc x h0 h1
    rw [he.kVal hS hq h1, fin_inj] at this
    unfold Phys.kin Kerr.kin Kerr.kinDoc at this
    linarith
  have e1 := key 1 (by norm_num) (by norm_num)
  have e2 := key 2 (by norm_num) (by norm_num)
  norm_num at e1 e2
  rcases h with h | h <;> apply h <;> linarith

end

/-! ## C39: the equation of motion -/

theorem derivs_exist (hS : Setup E P g) {f p : List CR} (hf : f.length = P.nx * P.nlat * P.nphi)
    (hp : p.length = P.nx * P.nlat * P.nphi) :
    Derivs g f p (g.prP f) (g.prP p) (g.p2rP f) (g.pphiP f) (g.prP (g.pphiP f)) (g.psphXP f) (g.plapP f) := by
  have hw := hS.wf
  rw [← hS.total] at hf hp
  exact ⟨fun z hz => hw.set_partial_r_eq hf (hz.trans hf), fun z hz => hw.set_partial_r_eq hp (hz.trans hf),
    fun z hz => hw.set_partial2_r_eq hf (hz.trans hf), fun J z hz => hw.set_partial_phi_eq J hf (hz.trans hf),
    fun z hz => hw.set_partial_r_eq (by simp) (hz.trans hf), fun J z hz => hw.set_sphereX_eq hS.full J hf (hz.trans hf),
    fun J z hz => hw.set_spherical_lap_eq J hf (hz.trans hf)⟩

/-- real right-hand side -/
noncomputable def pkR (q : Phys) (c : Coef ℝ) (j : Jet) : ℝ :=
  c.p_p * j.v + c.p_dr_f * j.r + c.p_dr_p * j.vr + c.p_dr_dr_f * j.rr + c.p_dphi_dr_f * j.rphi + c.p_lap_f * j.lap
  + 1 / 2 * (deriv q.kin j.psi * (1 / q.kin j.psi)) * (c.p_p_p * j.v ^ 2 + c.p_p_dr_f * j.v * j.r + c.p_dr_f_dr_f * j.r ^ 2
    + c.p_dr_f_dphi_f * j.r * j.phi + c.p_sphereX_f * j.ang)
  - c.pre * (1 / q.kin j.psi * deriv q.pot j.psi)

theorem Eom.Of.pk_real (hS : Setup E P g) (hq : q.Is P) (he : Eom.Of g P e) (c : Coef ℝ) {j : Jet} (h1 : j.psi ≠ -1)
    (hk : q.kin j.psi ≠ 0) : e.pk (c.map fin) (fin j.psi) (fin j.v) (fin j.r) (fin j.vr) (fin j.rr) (fin j.phi)
      (fin j.rphi) (fin j.ang) (fin j.lap) = fin (pkR q c j) := by
  unfold Eom.pk
  rw [he.kprime hS hq h1, he.inverseK hS hq h1 hk, he.vprime hS hq h1 hk]
  simp only [Coef.map, fin_mul, fin_add, fin_sub, fin_pown, fin_lit]
  unfold pkR
  norm_num

/-- C39: `set_k` returns `f_k = p`, and at every grid point at finite radius whose field value is neither the pole -1 nor a zero of
`k`, the returned `p_k` is the (finite) second time derivative for which the documented equation of motion
`□ψ + (k'/2k)(∇ψ)² - V'/k = 0` holds with the derivatives the grid operators supply; at infinity the large-`r` limit of that
equation holds. -/
theorem C39_equation_of_motion (hS : Setup E P g) (hq : q.Is P) (ho : q.Ok) (he : Eom.Of g P e) (J : Junk (Cx CR))
    {f p fk pk : List CR} (hf : f.length = P.nx * P.nlat * P.nphi) (hp : p.length = P.nx * P.nlat * P.nphi)
    (hfk : fk.length = P.nx * P.nlat * P.nphi) (hpk : pk.length = P.nx * P.nlat * P.nphi) :
    ∃ e' pk' dr drp drr dph drph X lap, e.set_k g J f p fk pk = .ok (e', p, pk') ∧ Eom.Of g P e' ∧
      Derivs g f p dr drp drr dph drph X lap ∧
      ∀ ix it ip, ix < P.nx → it < P.nlat → ip < P.nphi → ∀ (R θ : ℝ) (φ : CR),
        g.getR_th_ph ix it ip = .ok ⟨fin R, fin θ, φ⟩ → ∀ j, JetAt g ix it ip f p dr drp drr dph drph X lap j →
        j.psi ≠ -1 → q.kin j.psi ≠ 0 →
        (0 < R → 1 / 10 ^ 16 < q.L - R → ∃ y, g.d.at3 pk' ix it ip = fin y ∧
          eomLhs q.kin q.pot j.psi (box q.M q.a (physR q.L R) θ { j with vv := y })
            (grad2 q.M q.a (physR q.L R) θ { j with vv := y }) = 0) ∧
        (R = q.L → ∃ y, g.d.at3 pk' ix it ip = fin y ∧
          eomLhs q.kin q.pot j.psi (boxInf { j with vv := y }) (grad2Inf { j with vv := y }) = 0) := by
  have hw := hS.wf
  have hd := derivs_exist hS hf hp
  have ht := hS.total
  have hf' := hf.trans ht.symm
  have hp' := hp.trans ht.symm
  refine ⟨_, _, _, _, _, _, _, _, _, Eom.set_k_eq hw (he.wf hS) J hf' hp' (hfk.trans ht.symm)
    (hpk.trans ht.symm), ?_, hd, ?_⟩
  · apply he.scr
    rw [← ht]
    exact Eom.scrP_ok f p
  · intro ix it ip hx hit hip R θ φ hc j hj h1 hk
    have hr := hS.inR hx hit hip
    have hval : ∀ c : Coef ℝ, g.d.at3 e.coef ix it ip = c.map fin → g.d.at3 (e.rhs g f p) ix it ip = fin (pkR q c j) := by
      intro c hcc
      rw [← he.pk_real hS hq c h1 hk, ← hcc, ← hj.psi, ← hj.v, ← hj.r, ← hj.vr, ← hj.rr, ← hj.phi, ← hj.rphi, ← hj.ang,
        ← hj.lap]
      exact gv_tab (hw.ok.idx3_lt hr)
    obtain ⟨c1, c2⟩ := he.coef_real hS hq ho hx hit hip hc
    refine ⟨fun h0 h2 => ?_, fun h => ?_⟩
    · obtain ⟨hr0, c1⟩ := c1 h0 h2
      refine ⟨_, hval _ c1, ?_⟩
      have hM := ho.M_pos
      have hs : 0 < Sig q.a (physR q.L R) θ := by unfold Sig; positivity
      have hN : 0 < 1 + 2 * q.M * physR q.L R / Sig q.a (physR q.L R) θ := by positivity
      unfold eomLhs box grad2 pkR docCoef
      dsimp only
      generalize physR q.L R = r at *
      generalize deriv q.kin j.psi = kd
      generalize deriv q.pot j.psi = vd
      generalize q.kin j.psi = k at *
      generalize Del q.M q.a r = D
      generalize hN' : 1 + 2 * q.M * r / Sig q.a r θ = N at *
      generalize Sig q.a r θ = S at *
      field_simp
      ring
    · refine ⟨_, hval _ (c2 h), ?_⟩
      unfold eomLhs boxInf grad2Inf pkR coefU Du Su
      dsimp only
      generalize deriv q.kin j.psi = kd
      generalize deriv q.pot j.psi = vd
      generalize q.kin j.psi = k at *
      norm_num
      field_simp
      ring

/-! ## C41: characteristic speeds -/

theorem Del_factor {M a : ℝ} (ha : |a| ≤ M) (r : ℝ) :
    Del M a r = (r - rPlus M a) * (r - (M - Real.sqrt (M ^ 2 - a ^ 2))) := by
  have h := (sqrt_facts ha).2
  unfold Del rPlus
  linear_combination h

theorem Del_nonneg {M a r : ℝ} (ha : |a| ≤ M) (hr : rPlus M a ≤ r) : 0 ≤ Del M a r := by
  rw [Del_factor ha]
  have := Real.sqrt_nonneg (M ^ 2 - a ^ 2)
  refine mul_nonneg (by linarith) ?_
  unfold rPlus at hr
  linarith

/-- the documented speeds are the two roots of the characteristic polynomial of the evolved system -/
theorem speed_roots {M a r θ : ℝ} (hM : 0 < M) (hr : 0 < r) (hD : 0 ≤ Del M a r) (c : ℝ) :
    c ^ 2 + (docCoef M a r θ).p_dr_p * c - (docCoef M a r θ).p_dr_dr_f = 0 ↔ c = speed 1 M a r θ ∨ c = speed (-1) M a r θ := by
  have hs : 0 < Sig a r θ := by unfold Sig; positivity
  unfold docCoef speed
  dsimp only
  generalize hS : Sig a r θ = S at *
  generalize Del M a r = D at *
  have hN : 0 < 1 + 2 * M * r / S := by positivity
  have hq : 0 ≤ 4 * M ^ 2 * r ^ 2 / S ^ 2 + (1 + 2 * M * r / S) * (D / S) := by positivity
  have hsq := Real.sq_sqrt hq
  generalize Real.sqrt (4 * M ^ 2 * r ^ 2 / S ^ 2 + (1 + 2 * M * r / S) * (D / S)) = w at *
  have key : c ^ 2 + 4 * M * r / S / (1 + 2 * M * r / S) * c - D / S / (1 + 2 * M * r / S)
      = (c - (1 + 2 * M * r / S)⁻¹ * (-(2 * M * r / S) + 1 * w)) * (c - (1 + 2 * M * r / S)⁻¹ * (-(2 * M * r / S) + -1 * w)) := by
    have e1 : 4 * M * r / S = 2 * (2 * M * r / S) := by ring
    have e2 : 4 * M ^ 2 * r ^ 2 / S ^ 2 = (2 * M * r / S) ^ 2 := by ring
    rw [e2] at hsq
    rw [e1]
    generalize 2 * M * r / S = s at *
    generalize D / S = B at *
    field_simp
    linear_combination hsq
  rw [key, mul_eq_zero, sub_eq_zero, sub_eq_zero]

theorem speed_horizon {M a θ : ℝ} (hM : 0 < M) (ha : |a| ≤ M) :
    speed 1 M a (rPlus M a) θ = 0 ∧ speed (-1) M a (rPlus M a) θ < 0 := by
  have hr := rPlus_pos (a := a) hM
  have hD : Del M a (rPlus M a) = 0 := by rw [Del_factor ha]; ring
  have hs : 0 < Sig a (rPlus M a) θ := by unfold Sig; positivity
  unfold speed
  rw [hD]
  generalize Sig a (rPlus M a) θ = S at *
  generalize rPlus M a = r at *
  have e2 : 4 * M ^ 2 * r ^ 2 / S ^ 2 + (1 + 2 * M * r / S) * (0 / S) = (2 * M * r / S) ^ 2 := by ring
  have h1 : 0 < 2 * M * r / S := by positivity
  rw [e2, Real.sqrt_sq h1.le]
  generalize 2 * M * r / S = s at *
  constructor
  · ring
  · have : (1 + s)⁻¹ * (-s + -1 * s) = -(2 * s * (1 + s)⁻¹) := by ring
    rw [this, neg_lt_zero]
    positivity

theorem speed_outside {M a r θ : ℝ} (hM : 0 < M) (ha : |a| ≤ M) (hr : rPlus M a < r) :
    0 < speed 1 M a r θ ∧ speed (-1) M a r θ < 0 := by
  have hr0 := (rPlus_pos (a := a) hM).trans hr
  have hD : 0 < Del M a r := by
    rw [Del_factor ha]
    have := Real.sqrt_nonneg (M ^ 2 - a ^ 2)
    unfold rPlus at *
    exact mul_pos (by linarith) (by linarith)
  have hs : 0 < Sig a r θ := by unfold Sig; positivity
  unfold speed
  generalize Sig a r θ = S at *
  generalize Del M a r = D at *
  have h1 : 0 < 2 * M * r / S := by positivity
  have h2 : 0 < (1 + 2 * M * r / S) * (D / S) := by positivity
  have e2 : 4 * M ^ 2 * r ^ 2 / S ^ 2 = (2 * M * r / S) ^ 2 := by ring
  rw [e2]
  generalize 2 * M * r / S = s at *
  have h3 : s < Real.sqrt (s ^ 2 + (1 + s) * (D / S)) := by
    conv_lhs => rw [← Real.sqrt_sq h1.le]
    exact Real.sqrt_lt_sqrt (by positivity) (by linarith)
  have h4 : 0 < (1 + s)⁻¹ := by positivity
  constructor
  · exact mul_pos h4 (by linarith)
  · exact mul_neg_of_pos_of_neg h4 (by linarith)

/-- C41.  `c` is a radial characteristic speed of the evolved system `∂_t p = A ∂_r p + B ∂_r² f + ...`, `∂_t f = p` when
`c² + A c - B = 0`.  On the launcher's grid (`Rmin` the horizon, `Rmax = L`): at the horizon end (index 0 for finite differences,
`nx-1` for Chebyshev) no speed is positive; at the infinity end the speed `c dR/dr` in the compactified radius vanishes.  At every
point at finite radius on or outside the horizon the speeds are the documented `c_±`, and strictly outside `c_- < 0 < c_+`. -/
theorem C41_no_boundary_condition (hS : Setup E P g) (hq : q.Is P) (ho : q.Ok) (he : Eom.Of g P e)
    (hlo : q.lo = compR q.L (rPlus q.M q.a)) (hup : q.up = q.L) (hcut : 1 / 10 ^ 16 < q.L - q.lo) {it ip : ℕ} (hit : it < P.nlat)
    (hip : ip < P.nphi) :
    (∀ (R : CR) (θ : ℝ) (φ : CR), g.getR_th_ph (if E.useCheb then P.nx - 1 else 0) it ip = .ok ⟨R, fin θ, φ⟩ → ∃ A B : ℝ,
      (g.d.at3 e.coef (if E.useCheb then P.nx - 1 else 0) it ip).p_dr_p = fin A ∧
      (g.d.at3 e.coef (if E.useCheb then P.nx - 1 else 0) it ip).p_dr_dr_f = fin B ∧
      ∀ c : ℝ, c ^ 2 + A * c - B = 0 → c ≤ 0) ∧
    (∀ (R : CR) (θ : ℝ) (φ : CR), g.getR_th_ph (if E.useCheb then 0 else P.nx - 1) it ip = .ok ⟨R, fin θ, φ⟩ → ∃ A B J : ℝ,
      (g.d.at3 e.coef (if E.useCheb then 0 else P.nx - 1) it ip).p_dr_p = fin A ∧
      (g.d.at3 e.coef (if E.useCheb then 0 else P.nx - 1) it ip).p_dr_dr_f = fin B ∧
      rd g.dR (if E.useCheb then 0 else P.nx - 1) = .ok (fin J) ∧ ∀ c : ℝ, c ^ 2 + A * c - B = 0 → c * J = 0) ∧
    (∀ ix, ix < P.nx → ∀ (R θ : ℝ) (φ : CR), g.getR_th_ph ix it ip = .ok ⟨fin R, fin θ, φ⟩ → 0 < R →
      1 / 10 ^ 16 < q.L - R → rPlus q.M q.a ≤ physR q.L R → ∃ A B : ℝ,
      (g.d.at3 e.coef ix it ip).p_dr_p = fin A ∧ (g.d.at3 e.coef ix it ip).p_dr_dr_f = fin B ∧
      (∀ c : ℝ, c ^ 2 + A * c - B = 0 ↔ c = speed 1 q.M q.a (physR q.L R) θ ∨ c = speed (-1) q.M q.a (physR q.L R) θ) ∧
      (rPlus q.M q.a < physR q.L R → speed (-1) q.M q.a (physR q.L R) θ < 0 ∧ 0 < speed 1 q.M q.a (physR q.L R) θ)) := by
  have hrp := rPlus_pos (a := q.a) ho.M_pos
  have h2 := hS.sizes.two
  have hpt : ∀ ix, ix < P.nx → g.radial.ptV ix = fin (radPt E.useCheb P.nx q.lo q.up ix) := by
    intro ix hx
    rw [hS.radial, hq.lo, hq.up]
    exact radialOf_pt h2.1 h2.2 _ _ hx
  have hn1 : ((P.nx : ℝ) - 1) ≠ 0 := by
    have : (2 : ℝ) ≤ P.nx := by exact_mod_cast h2.1
    linarith
  have hcast : ((P.nx - 1 : ℕ) : ℝ) = (P.nx : ℝ) - 1 := by push_cast [show 1 ≤ P.nx by omega]; ring
  have hloPt : radPt E.useCheb P.nx q.lo q.up (if E.useCheb then P.nx - 1 else 0) = q.lo := by
    unfold radPt
    cases E.useCheb
    · simp
    · simp only [if_true]
      unfold chebPt
      rw [hcast, mul_div_assoc, div_self hn1]
      simp
      ring
  have hupPt : radPt E.useCheb P.nx q.lo q.up (if E.useCheb then 0 else P.nx - 1) = q.L := by
    rw [← hup]
    unfold radPt
    cases E.useCheb
    · simp only [if_false, Bool.false_eq_true]
      rw [hcast, mul_div_cancel₀ _ hn1]
      ring
    · simp only [if_true]
      unfold chebPt
      simp
      ring
  have hphys : physR q.L q.lo = rPlus q.M q.a := by rw [hlo]; exact physR_compR ho.L_pos hrp.le
  have hlo0 : 0 < q.lo := by
    rw [hlo]; unfold compR
    have := ho.L_pos
    positivity
  refine ⟨?_, ?_, ?_⟩
  · intro R θ φ hc
    have hx : (if E.useCheb then P.nx - 1 else 0) < P.nx := by split <;> omega
    have hc' := hc
    rw [hS.wf.getR_eq (hS.inR hx hit hip), hpt _ hx, hloPt] at hc'
    have hR : R = fin q.lo := by injection hc' with hc'; injection hc' with a _ _; exact a.symm
    subst hR
    obtain ⟨_, h⟩ := (he.coef_real hS hq ho hx hit hip hc).1 hlo0 hcut
    refine ⟨_, _, by rw [h]; rfl, by rw [h]; rfl, fun c hcc => ?_⟩
    rw [hphys] at hcc
    have hD : Del q.M q.a (rPlus q.M q.a) = 0 := by rw [Del_factor ho.spin]; ring
    have := (speed_roots ho.M_pos hrp hD.ge c).mp hcc
    rcases this with h | h
    · rw [h]; exact (speed_horizon ho.M_pos ho.spin).1.le
    · rw [h]; exact (speed_horizon ho.M_pos ho.spin).2.le
  · intro R θ φ hc
    have hx : (if E.useCheb then 0 else P.nx - 1) < P.nx := by split <;> omega
    have hc' := hc
    rw [hS.wf.getR_eq (hS.inR hx hit hip), hpt _ hx, hupPt] at hc'
    have hR : R = fin q.L := by injection hc' with hc'; injection hc' with a _ _; exact a.symm
    subst hR
    have h := (he.coef_real hS hq ho hx hit hip hc).2 rfl
    refine ⟨_, _, 0, by rw [h]; rfl, by rw [h]; rfl, ?_, fun c _ => mul_zero c⟩
    rw [hS.wf.dR, rd_tab (by rw [hS.dims]; exact hx)]
    unfold Grid.dRV
    rw [hpt _ hx, hupPt, hS.cl, hq.L]
    simp [ho.L_pos.ne']
  · intro ix hx R θ φ hc h0 h1 hr
    obtain ⟨hpos, h⟩ := (he.coef_real hS hq ho hx hit hip hc).1 h0 h1
    exact ⟨_, _, by rw [h]; rfl, by rw [h]; rfl, speed_roots ho.M_pos hpos (Del_nonneg ho.spin hr),
      fun hlt => (speed_outside ho.M_pos ho.spin hlt).symm⟩

/-! ## C42, C43: energy density -/

/-- the value `set_rho` stores, real arithmetic -/
noncomputable def rhoR (q : Phys) (c : Coef ℝ) (j : Jet) : ℝ :=
  q.kin j.psi * (1 / 2) * (c.rho_vv * j.v ^ 2 + c.rho_vr * j.v * j.r + c.rho_rr * j.r ^ 2 + c.rho_rphi * j.r * j.phi
    + c.rho_sphereX * j.ang) + q.pot j.psi

theorem Eom.Of.rho_real (hS : Setup E P g) (hq : q.Is P) (he : Eom.Of g P e) (c : Coef ℝ) {j : Jet} (h1 : j.psi ≠ -1) :
    e.rhoVal (c.map fin) (fin j.psi) (fin j.v) (fin j.r) (fin j.phi) (fin j.ang) = fin (rhoR q c j) := by
  unfold Eom.rhoVal
  rw [he.kVal hS hq h1, he.vVal hS hq]
  simp only [Coef.map, fin_mul, fin_add, fin_pown, fin_ofNat_one, fin_ofNat', fin_div _ _ (two_ne_zero (α := ℝ)), fin_inj]
  rfl

/-- `set_rho` at a grid point -/
theorem set_rho_point (hS : Setup E P g) (hq : q.Is P) (he : Eom.Of g P e) {f p : List CR}
    (hf : f.length = P.nx * P.nlat * P.nphi) (hp : p.length = P.nx * P.nlat * P.nphi) :
    ∃ rho' dr drp drr dph drph X lap, (∀ J rho, rho.length = P.nx * P.nlat * P.nphi →
        ∃ e', e.set_rho g J f p rho = .ok (e', rho') ∧ Eom.Of g P e') ∧
      Derivs g f p dr drp drr dph drph X lap ∧
      ∀ ix it ip, ix < P.nx → it < P.nlat → ip < P.nphi → ∀ j, JetAt g ix it ip f p dr drp drr dph drph X lap j →
        j.psi ≠ -1 → ∀ c : Coef ℝ, g.d.at3 e.coef ix it ip = c.map fin → g.d.at3 rho' ix it ip = fin (rhoR q c j) := by
  have hw := hS.wf
  have ht := hS.total
  refine ⟨_, _, _, _, _, _, _, _, fun J rho hr => ⟨_, Eom.set_rho_eq hw (he.wf hS) J (hf.trans ht.symm) (hp.trans ht.symm)
    (hr.trans ht.symm), ?_⟩, derivs_exist hS hf hp, ?_⟩
  · apply he.scr
    rw [← ht]
    exact ((he.wf hS).scrRho f).scr
  · intro ix it ip hx hit hip j hj h1 c hc
    rw [← he.rho_real hS hq c h1, ← hc, ← hj.psi, ← hj.v, ← hj.r, ← hj.phi, ← hj.ang]
    exact gv_tab (hw.ok.idx3_lt (hS.inR hx hit hip))

/-- C42, as far as it is true: the kinetic part of the density `set_rho` stores is exactly half of the documented one (the code
multiplies by 1/2 both in the coefficients, scalar_eom.cpp:115-119, and in the sum, 343): `2 (ρ_code - V) = ρ_doc - V`. -/
theorem C42_half_of_documented_partial (hS : Setup E P g) (hq : q.Is P) (ho : q.Ok) (he : Eom.Of g P e) {f p : List CR}
    (hf : f.length = P.nx * P.nlat * P.nphi) (hp : p.length = P.nx * P.nlat * P.nphi) :
    ∃ rho' dr drp drr dph drph X lap, (∀ J rho, rho.length = P.nx * P.nlat * P.nphi →
        ∃ e', e.set_rho g J f p rho = .ok (e', rho') ∧ Eom.Of g P e') ∧
      Derivs g f p dr drp drr dph drph X lap ∧
      ∀ ix it ip, ix < P.nx → it < P.nlat → ip < P.nphi → ∀ (R θ : ℝ) (φ : CR),
        g.getR_th_ph ix it ip = .ok ⟨fin R, fin θ, φ⟩ → 0 < R → 1 / 10 ^ 16 < q.L - R →
        ∀ j, JetAt g ix it ip f p dr drp drr dph drph X lap j → j.psi ≠ -1 →
        ∃ y, g.d.at3 rho' ix it ip = fin y ∧ 2 * (y - q.pot j.psi) = rho q.kin q.pot q.M q.a (physR q.L R) θ j - q.pot j.psi ∧
          (y = rho q.kin q.pot q.M q.a (physR q.L R) θ j ↔ q.kin j.psi * rhoBracket q.M q.a (physR q.L R) θ j = 0) := by
  obtain ⟨rho', dr, drp, drr, dph, drph, X, lap, h1, h2, h3⟩ := set_rho_point hS hq he hf hp
  refine ⟨rho', dr, drp, drr, dph, drph, X, lap, h1, h2, ?_⟩
  intro ix it ip hx hit hip R θ φ hc h0 hL j hj hm
  obtain ⟨_, hcc⟩ := (he.coef_real hS hq ho hx hit hip hc).1 h0 hL
  have h := h3 ix it ip hx hit hip j hj hm _ hcc
  have hh : rhoR q (docCoef q.M q.a (physR q.L R) θ) j
      = q.kin j.psi * (1 / 4) * rhoBracket q.M q.a (physR q.L R) θ j + q.pot j.psi := by
    unfold rhoR docCoef rhoBracket
    dsimp only
    ring
  refine ⟨_, h, ?_, ?_⟩
  · rw [hh]; unfold rho; ring
  · rw [hh]; unfold rho
    constructor
    · intro h; linarith
    · intro h; linarith

/-- the bracket of the documented density is a sum of squares plus the excess of `ang` over `ψ_φ²/sin²θ` -/
theorem rhoBracket_nonneg {M a r θ : ℝ} (hM : 0 < M) (hr : 0 < r) (hθ : Real.sin θ ≠ 0) {j : Jet}
    (hX : j.phi ^ 2 / Real.sin θ ^ 2 ≤ j.ang) : 0 ≤ rhoBracket M a r θ j := by
  have hs : 0 < Sig a r θ := by unfold Sig; positivity
  have hsc := Real.sin_sq_add_cos_sq θ
  have hSig : r ^ 2 + a ^ 2 = Sig a r θ + a ^ 2 * Real.sin θ ^ 2 := by unfold Sig; linear_combination (-(a ^ 2)) * hsc
  have hN : 0 < 2 * M * r + Sig a r θ := by positivity
  have key : rhoBracket M a r θ j = (2 * M * r + Sig a r θ) / Sig a r θ * (j.v + 2 * M * r / (2 * M * r + Sig a r θ) * j.r) ^ 2
      + Sig a r θ / (2 * M * r + Sig a r θ) * j.r ^ 2 + (a * Real.sin θ * j.r + j.phi / Real.sin θ) ^ 2 / Sig a r θ
      + (j.ang - j.phi ^ 2 / Real.sin θ ^ 2) / Sig a r θ := by
    unfold rhoBracket
    rw [show r ^ 2 + 2 * M * r + a ^ 2 = (r ^ 2 + a ^ 2) + 2 * M * r by ring, hSig]
    generalize Sig a r θ = S at *
    generalize Real.sin θ = s at *
    field_simp
    ring
  rw [key]
  have : 0 ≤ j.ang - j.phi ^ 2 / Real.sin θ ^ 2 := by linarith
  positivity

/-- C43: where the angular gradient array dominates `ψ_φ²/sin²θ` (it is `ψ_θ²+ψ_φ²/sin²θ`), `k ≥ 0` and `V ≥ 0`, the density stored by
`set_rho` is finite and non-negative, for every radius outside 0 (in particular everywhere on or outside the horizon), infinity
included, and for all values of the gradients. -/
theorem C43_nonnegative (hS : Setup E P g) (hq : q.Is P) (ho : q.Ok) (he : Eom.Of g P e) {f p : List CR}
    (hf : f.length = P.nx * P.nlat * P.nphi) (hp : p.length = P.nx * P.nlat * P.nphi) :
    ∃ rho' dr drp drr dph drph X lap, (∀ J rho, rho.length = P.nx * P.nlat * P.nphi →
        ∃ e', e.set_rho g J f p rho = .ok (e', rho') ∧ Eom.Of g P e') ∧
      Derivs g f p dr drp drr dph drph X lap ∧
      ∀ ix it ip, ix < P.nx → it < P.nlat → ip < P.nphi → ∀ (R θ : ℝ) (φ : CR),
        g.getR_th_ph ix it ip = .ok ⟨fin R, fin θ, φ⟩ → (0 < R ∧ 1 / 10 ^ 16 < q.L - R ∨ R = q.L) → Real.sin θ ≠ 0 →
        ∀ j, JetAt g ix it ip f p dr drp drr dph drph X lap j → j.psi ≠ -1 → j.phi ^ 2 / Real.sin θ ^ 2 ≤ j.ang →
        0 ≤ q.kin j.psi → 0 ≤ q.pot j.psi → ∃ y, g.d.at3 rho' ix it ip = fin y ∧ 0 ≤ y := by
  obtain ⟨rho', dr, drp, drr, dph, drph, X, lap, h1, h2, h3⟩ := set_rho_point hS hq he hf hp
  refine ⟨rho', dr, drp, drr, dph, drph, X, lap, h1, h2, ?_⟩
  intro ix it ip hx hit hip R θ φ hc h0 hs j hj hm hX hk hv
  obtain ⟨c1, c2⟩ := he.coef_real hS hq ho hx hit hip hc
  rcases h0 with ⟨h0, hL⟩ | h0
  · obtain ⟨hr, hcc⟩ := c1 h0 hL
    refine ⟨_, h3 ix it ip hx hit hip j hj hm _ hcc, ?_⟩
    have hh : rhoR q (docCoef q.M q.a (physR q.L R) θ) j
        = q.kin j.psi * (1 / 4) * rhoBracket q.M q.a (physR q.L R) θ j + q.pot j.psi := by
      unfold rhoR docCoef rhoBracket
      dsimp only
      ring
    rw [hh]
    have := rhoBracket_nonneg (a := q.a) ho.M_pos hr hs hX
    positivity
  · refine ⟨_, h3 ix it ip hx hit hip j hj hm _ (c2 h0), ?_⟩
    have hh : rhoR q (coefU q.M q.a θ 0) j = q.kin j.psi * (1 / 4) * (j.v ^ 2 + j.r ^ 2) + q.pot j.psi := by
      unfold rhoR coefU Su
      norm_num
      ring
    rw [hh]
    positivity

/-- non-vacuity of C38-C43: a finite-difference and a Chebyshev set-up with a spinning black hole, on which the grid point
`(ix,it,ip)=(3,2,5)` lies strictly outside the horizon at finite radius and off the axis, and the launcher's end points hold. -/
example : ∃ (E : Env CR) (g : Grid CR) (e : Eom CR), Setup E demoP g ∧ demoQ.Is demoP ∧ demoQ.Ok ∧ Eom.Of g demoP e ∧
    demoQ.lo = compR demoQ.L (rPlus demoQ.M demoQ.a) ∧ demoQ.up = demoQ.L ∧ 1 / 10 ^ 16 < demoQ.L - demoQ.lo ∧
    ∃ R θ φ : ℝ, g.getR_th_ph 3 2 5 = .ok ⟨fin R, fin θ, fin φ⟩ ∧ 0 < R ∧ 1 / 10 ^ 16 < demoQ.L - R ∧ Real.sin θ ≠ 0 ∧
      demoQ.kin 2 ≠ 0 := by
  obtain ⟨E, x, A, g, e, h1, h2, h3, h4, h5, h6, h7⟩ := demo_setup true false false
  have hlo : compR 100 (9/10) = 900 / 1009 := by unfold compR; norm_num
  refine ⟨E, g, e, h5, demo_is, demo_ok, h7, by rw [demo_rPlus]; rfl, rfl, ?_, _, _, _,
    h5.coords demo_is h4 (by decide) (by decide) (by decide), ?_, ?_, ?_, ?_⟩
  · simp only [demoQ, hlo]; norm_num
  · rw [h3]; simp only [radPt, demoQ, demoP, hlo]; norm_num
  · rw [h3]; simp only [radPt, demoQ, demoP, hlo]; norm_num
  · rw [Real.sin_arccos]
    have := h4.math.inside 2 (by decide)
    exact (Real.sqrt_pos.mpr (by nlinarith [this.1, this.2])).ne'
  · simp [Phys.kin, Kerr.kin, demoQ]

end SFK
