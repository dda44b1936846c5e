import Verif.Lemmas.Consistency
import Verif.Props.TimeOrder
/-
C84: consistency of the finite-difference semi-discretisation on smooth fields.
-/
namespace SFK
open Scalar CR Kerr

/-- what the derivatives of a function through the slice are, in terms of the mode sums -/
theorem jet_of_slice {ψ : Pt → ℝ} {v0 r0 L r θ φ : ℝ} {nl nm : ℕ} {F G : SModes} (hF : F.Smooth 8 nl nm) (hG : G.Smooth 8 nl nm) (hL : 0 < L)
    (h0 : 0 ≤ r0) (hψ : OnSliceFrom ψ v0 r0 L nl F G) (hr : r0 < r) {R : ℝ} (hR : compR L r = R) :
    let j := jetOf ψ ![v0, r, θ, φ]
    j.psi = F.fn nl R θ φ ∧ j.v = G.fn nl R θ φ ∧ j.r = F.D.fn nl R θ φ * (1 - R / L) ^ 2 ∧
    j.vr = G.D.fn nl R θ φ * (1 - R / L) ^ 2 ∧
    j.rr = -2 / L * (1 - R / L) ^ 3 * F.D.fn nl R θ φ + ((1 - R / L) ^ 2) ^ 2 * F.D.D.fn nl R θ φ ∧
    j.phi = F.dphi.fn nl R θ φ ∧ j.rphi = F.dphi.D.fn nl R θ φ * (1 - R / L) ^ 2 ∧
    j.lap = lapS2 (F.fn nl R) θ φ ∧ j.ang = gradSq (F.fn nl R) θ φ := by
  have u1 : ∀ t s : ℝ, Function.update (![v0, t, θ, φ] : Pt) 1 s = ![v0, s, θ, φ] := by
    intro t s; funext i; fin_cases i <;> simp [Function.update]
  have u3 : ∀ t s : ℝ, Function.update (![v0, t, θ, φ] : Pt) 3 s = ![v0, t, θ, s] := by
    intro t s; funext i; fin_cases i <;> simp [Function.update]
  have chain : ∀ H : SModes, H.Smooth 7 nl nm → ∀ t, r0 < t → HasDerivAt (fun r => H.fn nl (compR L r) θ φ)
      (H.D.fn nl (compR L t) θ φ * (1 - compR L t / L) ^ 2) t := fun H hH t ht =>
    (SModes.hasDerivAt (n := 6) hH (compR L t) θ φ).comp t (compR_deriv hL (h0.trans ht.le))
  have low : ∀ {H : SModes}, H.Smooth 8 nl nm → H.Smooth 7 nl nm := fun {H} h =>
    ⟨fun l m => ⟨(h.diff l m).1.of_le (by norm_cast), (h.diff l m).2.of_le (by norm_cast)⟩, h.real, h.top⟩
  have pd1 : ∀ t, r0 < t → pd 1 ψ ![v0, t, θ, φ] = F.D.fn nl (compR L t) θ φ * (1 - compR L t / L) ^ 2 := by
    intro t ht
    refine pd_of (G := fun t => F.fn nl (compR L t) θ φ) ?_ (chain F (low hF) t ht)
    filter_upwards [lt_mem_nhds (show r0 < (![v0, t, θ, φ] : Pt) 1 from ht)] with s hs
    rw [u1]
    exact (hψ s θ φ hs).1
  have pd3 : ∀ t, r0 < t → pd 3 ψ ![v0, t, θ, φ] = F.dphi.fn nl (compR L t) θ φ := by
    intro t ht
    rw [← SModes.dphi_fn]
    unfold pd dPh
    congr 1
    funext s
    beta_reduce
    rw [u3]
    exact (hψ t θ s ht).1
  have hfun : (fun a b => ψ ![v0, r, a, b]) = F.fn nl R := by
    funext a b
    rw [(hψ r a b hr).1, hR]
  have hr' : 0 < r := h0.trans_lt hr
  subst hR
  refine ⟨(hψ r θ φ hr).1, (hψ r θ φ hr).2, pd1 r hr, ?_, ?_, pd3 r hr, ?_, ?_, ?_⟩
  · refine pd_of (G := fun t => G.fn nl (compR L t) θ φ) ?_ (chain G (low hG) r hr)
    filter_upwards [lt_mem_nhds (show r0 < (![v0, r, θ, φ] : Pt) 1 from hr)] with s hs
    rw [u1]
    exact (hψ s θ φ hs).2
  · refine pd_of (G := fun t => F.D.fn nl (compR L t) θ φ * (1 - compR L t / L) ^ 2) ?_ ?_
    · filter_upwards [lt_mem_nhds (show r0 < (![v0, r, θ, φ] : Pt) 1 from hr)] with s hs
      rw [u1]
      exact pd1 s hs
    · have d1 := chain F.D (SModes.Smooth.D (n := 7) hF) r hr
      have d2 : HasDerivAt (fun r => (1 - compR L r / L) ^ 2) (-2 / L * (1 - compR L r / L) ^ 3) r := by
        refine (compR_deriv2 hL hr').congr_of_eventuallyEq ?_
        filter_upwards [lt_mem_nhds hr'] with s hs
        exact (compR_deriv hL hs.le).deriv.symm
      refine (d1.mul d2).congr_deriv ?_
      show _ = _
      ring
  · refine pd_of (G := fun t => F.dphi.fn nl (compR L t) θ φ) ?_ (chain F.dphi (low hF.dphi) r hr)
    filter_upwards [lt_mem_nhds (show r0 < (![v0, r, θ, φ] : Pt) 1 from hr)] with s hs
    rw [u1]
    exact pd3 s hs
  · show lapS2 _ θ φ = _
    rw [← hfun]; rfl
  · show gradSq _ θ φ = _
    rw [← hfun]; rfl

theorem one_sub_sq_pos {x : ℝ} (h1 : -1 < x) (h2 : x < 1) : 0 < 1 - x ^ 2 := by nlinarith

theorem compR_mono {L r r0 : ℝ} (hL : 0 < L) (hr : 0 < r) (hle : r ≤ r0) : compR L r ≤ compR L r0 := by
  unfold compR
  have h0 : 0 < r0 := hr.trans_le hle
  rw [div_le_div_iff₀ (by positivity) (by positivity)]
  have : r * (r0 / L) = r0 * (r / L) := by ring
  nlinarith

theorem le_physR {L R : ℝ} (hL : 0 < L) (h0 : 0 < R) (h1 : R < L) : R ≤ physR L R := by
  unfold physR
  have hu : 0 < 1 - R / L := by rw [sub_pos, div_lt_one hL]; exact h1
  have : 0 < R / L := by positivity
  rw [le_div_iff₀ hu]
  nlinarith

theorem kin_ratio_bounded {q : Phys} {nl nm : ℕ} {F : SModes} (hF : F.Smooth 8 nl nm)
    (hk : ∀ R ∈ Set.Icc q.lo q.up, ∀ θ ∈ Set.Icc 0 Real.pi, ∀ φ ∈ Set.Icc 0 (2 * Real.pi), F.fn nl R θ φ ≠ -1 ∧ q.kin (F.fn nl R θ φ) ≠ 0) :
    ∃ K, 0 ≤ K ∧ ∀ R θ φ, (R, θ, φ) ∈ shellBox q.lo q.up →
      |deriv q.kin (F.fn nl R θ φ) / q.kin (F.fn nl R θ φ)| ≤ K := by
  obtain ⟨K, h0, hK⟩ := bounded_on (lo := q.lo) (up := q.up)
    (u := fun y => deriv q.kin (F.fn nl y.1 y.2.1 y.2.2) / q.kin (F.fn nl y.1 y.2.1 y.2.2)) (by
      have hc := (SModes.continuous hF).continuousOn (s := shellBox q.lo q.up)
      refine ContinuousOn.div ?_ ?_ (fun y hy => (hk y.1 hy.1 y.2.1 hy.2.1 y.2.2 hy.2.2).2)
      · refine ContinuousOn.congr (f := fun y => -q.km1 / (1 + F.fn nl y.1 y.2.1 y.2.2) ^ 2 + q.k1 + q.k2 * F.fn nl y.1 y.2.1 y.2.2) ?_ ?_
        · refine ((continuousOn_const.div ((continuousOn_const.add hc).pow 2) ?_).add continuousOn_const).add (continuousOn_const.mul hc)
          intro y hy h
          have := (hk y.1 hy.1 y.2.1 hy.2.1 y.2.2 hy.2.2).1
          have h2 : 1 + F.fn nl y.1 y.2.1 y.2.2 = 0 := pow_eq_zero_iff (two_ne_zero) |>.mp h
          exact this (by linarith)
        · intro y hy
          show deriv q.kin _ = _
          rw [show q.kin = Kerr.kin q.km1 q.k0 q.k1 q.k2 from rfl, (kin_deriv (hk y.1 hy.1 y.2.1 hy.2.1 y.2.2 hy.2.2).1).deriv, add_comm (F.fn nl y.1 y.2.1 y.2.2)]
      · unfold Phys.kin Kerr.kin
        refine (((continuousOn_const.div (continuousOn_const.add hc) ?_).add continuousOn_const).add (continuousOn_const.mul hc)).add
          (continuousOn_const.mul (hc.pow 2))
        intro y hy h
        have h2 : 1 + F.fn nl y.1 y.2.1 y.2.2 = 0 := h
        exact (hk y.1 hy.1 y.2.1 hy.2.1 y.2.2 hy.2.2).1 (by linarith))
  exact ⟨K, h0, fun R θ φ hy => hK (R, θ, φ) hy⟩

/-- A grid whose radial operators are accurate to `ε` on the lines of the data gives a time derivative accurate to a multiple of `ε`. -/
theorem consistency_core {q : Phys} (ho : q.Ok) (hlu : q.lo < q.up) (hlo : 0 < q.lo) {nl nm : ℕ} {F G : SModes} (hF : F.Smooth 8 nl nm)
    (hG : G.Smooth 8 nl nm)
    (hk : ∀ R ∈ Set.Icc q.lo q.up, ∀ θ ∈ Set.Icc 0 Real.pi, ∀ φ ∈ Set.Icc 0 (2 * Real.pi), F.fn nl R θ φ ≠ -1 ∧ q.kin (F.fn nl R θ φ) ≠ 0)
    {D : ℝ} (hD : 0 ≤ D) :
    ∃ C, 0 ≤ C ∧ ∀ (E : Env CR) (P : ParamRec CR) (g : Grid CR) (e : Eom CR) (x : ℕ → ℝ) (A : ℕ → ℕ → ℕ → ℝ), Exact E P g q x A →
      P.nl = nl → P.nm = nm → Eom.Of g P e → ∀ ε, 0 ≤ ε → ε ≤ D → LineErr E P q F ε → LineErr E P q G ε → LineErr E P q F.dphi ε →
      ∀ (J : Junk (Cx CR)) (f p fk pk : List CR), HoldsC E P q x g f F.at → HoldsC E P q x g p G.at →
      fk.length = P.nx * P.nlat * P.nphi → pk.length = P.nx * P.nlat * P.nphi →
      ∃ e' pk', e.set_k g J f p fk pk = .ok (e', p, pk') ∧
        ∀ (ψ : Pt → ℝ) (v0 r0 : ℝ), 0 ≤ r0 → compR q.L r0 < q.lo → OnSliceFrom ψ v0 r0 q.L nl F G →
        ∀ ix it ip, ix < P.nx → it < P.nlat → ip < P.nphi → ∀ R θ φ : ℝ, g.getR_th_ph ix it ip = .ok ⟨fin R, fin θ, fin φ⟩ →
          1 / 10 ^ 16 < q.L - R → ContDiffAt ℝ 2 ψ ![v0, physR q.L R, θ, φ] →
          eomLhs q.kin q.pot (ψ ![v0, physR q.L R, θ, φ]) (boxG (metric q.M q.a) ψ ![v0, physR q.L R, θ, φ])
            (gradG (metric q.M q.a) ψ ![v0, physR q.L R, θ, φ]) = 0 →
          g.d.at3 p ix it ip = fin (pd 0 ψ ![v0, physR q.L R, θ, φ]) ∧
          ∃ y, g.d.at3 pk' ix it ip = fin y ∧ |y - pd 0 (pd 0 ψ) ![v0, physR q.L R, θ, φ]| ≤ C * ε := by
  have hL := ho.L_pos
  have sm : ∀ (H : SModes), H.Smooth 8 nl nm → ∃ B, 0 ≤ B ∧ ∀ R θ φ, (R, θ, φ) ∈ shellBox q.lo q.up →
      |H.fn nl R θ φ| ≤ B ∧ |H.D.fn nl R θ φ| ≤ B := by
    intro H hH
    obtain ⟨B0, z0, b0⟩ := SModes.bounded hH q.lo q.up
    obtain ⟨B1, z1, b1⟩ := SModes.bounded (SModes.Smooth.D (n := 7) hH) q.lo q.up
    refine ⟨B0 + B1, by positivity, fun R θ φ h => ⟨?_, ?_⟩⟩
    · linarith [b0 R θ φ h]
    · linarith [b1 R θ φ h]
  obtain ⟨BF, zF, bF⟩ := sm F hF
  obtain ⟨BG, zG, bG⟩ := sm G hG
  obtain ⟨BP, zP, bP⟩ := sm F.dphi hF.dphi
  obtain ⟨K, hK0, hK⟩ := kin_ratio_bounded hF hk
  obtain ⟨B, hB⟩ : ∃ B, B = BF + BG + BP := ⟨_, rfl⟩
  have hB0 : 0 ≤ B := by rw [hB]; positivity
  obtain ⟨Cd, hCd⟩ : ∃ Cd, Cd = 2 + 2 / q.L := ⟨_, rfl⟩
  have hCd0 : 0 ≤ Cd := by rw [hCd]; positivity
  obtain ⟨κ, hκ⟩ : ∃ κ, κ = 4 * q.M / q.lo + (1 + 2 * q.M / q.lo + q.a ^ 2 / q.lo ^ 2) + 2 * |q.a| / q.lo ^ 2
      + (2 / q.lo + 2 * q.M / q.lo ^ 2) := ⟨_, rfl⟩
  have hM := ho.M_pos
  have hκ0 : 0 ≤ κ := by rw [hκ]; positivity
  have hd : 0 ≤ q.up - q.lo := by linarith
  refine ⟨κ * (4 + K / 2 * (4 * B + Cd * D)) * Cd, by positivity, ?_⟩
  intro E P g e x A hX hnl hnm he ε hε hεD lF lG lP J f p fk pk hf hp hfk hpk
  subst hnl hnm
  obtain ⟨e', pk', dr, drp, drr, dph, drph, X, lap, h1, _, h2, h3⟩ := C39_equation_of_motion hX.setup hX.phys ho he J hf.1 hp.1 hfk hpk
  refine ⟨e', pk', h1, ?_⟩
  obtain ⟨oP, oL, oX, a1, a2, a3⟩ := hf.angular hX (fun R l => hF.real l R) (fun R l m hl => by
    apply Complex.ext
    · exact (hF.top l m hl R).1
    · exact (hF.top l m hl R).2)
  obtain ⟨J0⟩ : Nonempty (Junk (Cx CR)) := ⟨fun _ _ => ⟨fin 0, fin 0⟩⟩
  have e1 : oP = dph := by have := (a1 J0 f rfl).1; rw [h2.h_dph J0 f rfl] at this; cases this; rfl
  have e2 : oL = lap := by have := (a1 J0 f rfl).2.1; rw [h2.h_lap J0 f rfl] at this; cases this; rfl
  have e3 : oX = X := by have := (a1 J0 f rfl).2.2; rw [h2.h_X J0 f rfl] at this; cases this; rfl
  subst e1 e2 e3
  have a2' : HoldsC E P q x g oP F.dphi.at := by
    have e : (fun R l m => Complex.I * m * F.at R l m) = F.dphi.at := by funext R; exact (SModes.dphi_at F R).symm
    rw [e] at a2
    exact a2
  obtain ⟨drrp, drrph, k1, k2⟩ : ∃ drrp drrph, (∀ z, z.length = p.length → g.set_partial2_r p z = .ok drrp) ∧
      (∀ z, z.length = oP.length → g.set_partial2_r oP z = .ok drrph) := by
    have hw := hX.setup.wf
    have ht := hX.setup.total
    exact ⟨_, _, fun z hz => hw.set_partial2_r_eq (by rw [hp.1, ht]) (by rw [hz, hp.1, ht]),
      fun z hz => hw.set_partial2_r_eq (by rw [a2.1, ht]) (by rw [hz, a2.1, ht])⟩
  intro ψ v0 r0 hr0 hcr hψ ix it ip hx hit hip R θ φ hc hRL hC heq
  have hc' := hX.setup.coords hX.phys hX.env hx hit hip
  rw [hc] at hc'
  injection hc' with hc'
  injection hc' with c1 c2 c3
  rw [fin_inj] at c1 c2 c3
  have c3' : φ = phiN P.nphi ip := c3
  have hRL' : R < q.L := by
    have : (0:ℝ) < 1 / 10 ^ 16 := by positivity
    linarith
  have hRm : R ∈ Set.Icc q.lo q.up := by rw [c1]; exact radPt_mem hX.setup.sizes.two.1 hlu.le hx
  have hbox : (R, θ, φ) ∈ shellBox q.lo q.up := by
    refine ⟨hRm, ?_, ?_⟩
    · show θ ∈ _
      rw [c2]; exact ⟨Real.arccos_nonneg _, Real.arccos_le_pi _⟩
    · show φ ∈ _
      rw [c3']
      unfold phiN
      have hn : (0 : ℝ) < P.nphi := by exact_mod_cast (by omega : 0 < P.nphi)
      have hi : (ip : ℝ) ≤ P.nphi := by exact_mod_cast hip.le
      have := Real.pi_pos
      refine ⟨by positivity, ?_⟩
      rw [div_le_iff₀ hn]
      exact mul_le_mul_of_nonneg_left hi (by positivity)
  obtain ⟨y1, y2, r1, r2, r3, r4⟩ := hf.radial hX hL lF h2.h_dr h2.h_drr hx hit hip c1 c2 c3'
  obtain ⟨z1, z2, s1, _, s3, _⟩ := hp.radial hX hL lG (fun z hz => h2.h_drp z (by rw [hz, hp.1, hf.1])) k1 hx hit hip c1 c2 c3'
  obtain ⟨w1, w2, t1, _, t3, _⟩ := a2'.radial hX hL lP (fun z hz => h2.h_drph z (by rw [hz, a2.1, hf.1])) k2 hx hit hip c1 c2 c3'
  have hRp : 0 < R := hlo.trans_le hRm.1
  have hrp := physR_pos hL hRp hRL'
  have hback := compR_physR hL hRL'
  obtain ⟨r, hrr⟩ : ∃ r, r = physR q.L R := ⟨_, rfl⟩
  rw [← hrr] at hC heq hrp hback ⊢
  have hr0r : r0 < r := by
    by_contra hcon
    have hle : r ≤ r0 := not_lt.mp hcon
    have := compR_mono hL hrp hle
    rw [hback] at this
    linarith [hRm.1]
  obtain ⟨j1, j2, j3, j4, j5, j6, j7, j8, j9⟩ := jet_of_slice (θ := θ) (φ := φ) hF hG hL hr0 hψ hr0r hback
  obtain ⟨j, hj⟩ : ∃ j, j = jetOf ψ ![v0, r, θ, φ] := ⟨_, rfl⟩
  rw [← hj] at j1 j2 j3 j4 j5 j6 j7 j8 j9
  obtain ⟨u, hu⟩ : ∃ u, u = 1 - R / q.L := ⟨_, rfl⟩
  have hu0 : 0 ≤ u := by
    rw [hu, sub_nonneg, div_le_one hL]; exact hRL'.le
  have hu1 : u ≤ 1 := by
    rw [hu]; have : 0 < R / q.L := by positivity
    linarith
  rw [← hu] at r1 r2 s1 t1 j3 j4 j5 j7
  obtain ⟨jn, n1, n2, n3, n4, n5, n6, n7, n8, n9⟩ : ∃ jn : Jet, jn.psi = j.psi ∧ jn.v = j.v ∧ jn.r = y1 * u ^ 2 ∧ jn.vr = z1 * u ^ 2 ∧
      jn.rr = -2 / q.L * u ^ 3 * y1 + (u ^ 2) ^ 2 * y2 ∧ jn.phi = j.phi ∧ jn.rphi = w1 * u ^ 2 ∧ jn.lap = j.lap ∧ jn.ang = j.ang :=
    ⟨{ j with r := y1 * u ^ 2, vr := z1 * u ^ 2, rr := -2 / q.L * u ^ 3 * y1 + (u ^ 2) ^ 2 * y2, rphi := w1 * u ^ 2 },
      rfl, rfl, rfl, rfl, rfl, rfl, rfl, rfl, rfl⟩
  have hv : g.d.at3 p ix it ip = fin j.v := by
    rw [hp.2 ix it ip hx hit hip, ← c1, ← c2, ← c3', j2]; rfl
  have jet : JetAt g ix it ip f p dr drp drr oP drph oX oL jn := by
    refine ⟨?_, by rw [n2]; exact hv, by rw [n3]; exact r1, by rw [n4]; exact s1, by rw [n5]; exact r2, ?_, by rw [n7]; exact t1, ?_, ?_⟩
    · rw [hf.2 ix it ip hx hit hip, ← c1, ← c2, ← c3']
      rw [n1, j1]; rfl
    · rw [a2'.2 ix it ip hx hit hip, ← c1, ← c2, ← c3']
      rw [n6, j6]; rfl
    · rw [(a3 ix it ip hx hit hip).2, ← c1, ← c2, ← c3']
      rw [n9, j9]; rfl
    · rw [(a3 ix it ip hx hit hip).1, ← c1, ← c2, ← c3']
      rw [n8, j8]; rfl
  have hkk := hk R hRm θ hbox.2.1 φ hbox.2.2
  obtain ⟨y, hy1, hy2⟩ := (h3 ix it ip hx hit hip R θ _ hc jn jet (by rw [n1, j1]; exact hkk.1)
    (by rw [n1, j1]; exact hkk.2)).1 hRp hRL
  rw [← hrr, n1] at hy2
  have hin := hX.env.math.inside it hit
  have hs : 0 < Real.sin θ := by
    rw [c2, Real.sin_arccos]
    exact Real.sqrt_pos.mpr (one_sub_sq_pos hin.1 hin.2)
  obtain ⟨b1, b2⟩ := C77_wave_operator q.M q.a hC hrp hs
  rw [b1, b2] at heq
  have heq' : eomLhs q.kin q.pot j.psi (box q.M q.a r θ j) (grad2 q.M q.a r θ j) = 0 := by
    rw [hj]; exact heq
  have hRr : q.lo ≤ r := by
    rw [hrr]; exact hRm.1.trans (le_physR hL hRp hRL')
  obtain ⟨κ', hκ', g1, g2, g3, g4⟩ := coef_bounds (a := q.a) (θ := θ) hlo hRr hM
  rw [← hκ] at hκ'
  subst hκ'
  have BFB : BF ≤ B := by rw [hB]; linarith
  have BGB : BG ≤ B := by rw [hB]; linarith
  have BPB : BP ≤ B := by rw [hB]; linarith
  have hu2 : u ^ 2 ≤ 1 := pow_le_one₀ hu0 hu1
  have hu20 : 0 ≤ u ^ 2 := by positivity
  have hL2 : 0 ≤ 2 / q.L := by positivity
  have base : ε ≤ Cd * ε := le_mul_of_one_le_left hε (by rw [hCd]; linarith)
  have one : ∀ {yy tt : ℝ}, |yy - tt| ≤ ε → |yy * u ^ 2 - tt * u ^ 2| ≤ Cd * ε := by
    intro yy tt hy
    rw [← sub_mul, abs_mul, abs_of_nonneg hu20]
    exact ((mul_le_of_le_one_right (abs_nonneg _) hu2).trans hy).trans base
  have err := vv_error (jn := jn) (y := y) (κ := κ') (B := B) (δ := Cd * ε) (D := Cd * D) (K := K) hrp hM heq' hy2 n2 n6
    n8 n9 (by rw [n3, j3]; exact one r3) (by rw [n4, j4]; exact one s3) ?_ (by rw [n7, j7]; exact one t3)
    (by rw [j2]; exact ((bG R θ φ hbox).1).trans BGB) (by rw [j6]; exact ((bP R θ φ hbox).1).trans BPB) ?_
    (mul_le_mul_of_nonneg_left hεD hCd0) (by rw [j1]; exact hK R θ φ hbox) g1 g2 g3 g4
  · refine ⟨by rw [hv, hj]; rfl, y, hy1, ?_⟩
    have e : pd 0 (pd 0 ψ) ![v0, r, θ, φ] = j.vv := by rw [hj]; rfl
    rw [e]
    refine err.trans (le_of_eq ?_)
    ring
  · rw [n5, j5]
    have e : -2 / q.L * u ^ 3 * y1 + (u ^ 2) ^ 2 * y2 - (-2 / q.L * u ^ 3 * F.D.fn P.nl R θ φ + (u ^ 2) ^ 2 * F.D.D.fn P.nl R θ φ) =
        (-2 / q.L * u ^ 3) * (y1 - F.D.fn P.nl R θ φ) + (u ^ 2) ^ 2 * (y2 - F.D.D.fn P.nl R θ φ) := by ring
    have hu3 : u ^ 3 ≤ 1 := pow_le_one₀ hu0 hu1
    have hu4 : (u ^ 2) ^ 2 ≤ 1 := pow_le_one₀ hu20 hu2
    have f1 : |(-2 / q.L * u ^ 3) * (y1 - F.D.fn P.nl R θ φ)| ≤ 2 / q.L * ε := by
      rw [abs_mul, abs_mul, abs_div, abs_neg, abs_two, abs_of_pos hL, abs_of_nonneg (by positivity : 0 ≤ u ^ 3)]
      refine mul_le_mul ?_ r3 (abs_nonneg _) (by positivity)
      exact mul_le_of_le_one_right (by positivity) hu3
    have f2 : |(u ^ 2) ^ 2 * (y2 - F.D.D.fn P.nl R θ φ)| ≤ ε := by
      rw [abs_mul, abs_of_nonneg (by positivity : 0 ≤ (u ^ 2) ^ 2)]
      exact (mul_le_of_le_one_left (abs_nonneg _) hu4).trans r4
    rw [e]
    refine (abs_add_le _ _).trans ((add_le_add f1 f2).trans ?_)
    rw [hCd]
    linarith
  · rw [j3, abs_mul, abs_of_nonneg hu20]
    exact (mul_le_of_le_one_right (abs_nonneg _) hu2).trans (((bF R θ φ hbox).2).trans BFB)

/-- C84: the finite-difference discretisation of space is consistent of sixth order.  Fix the physics, the radial interval and the
data: `ψ` and `∂_vψ` on the initial slice are sums of spherical harmonics below degree `nl` with eight times continuously
differentiable coefficients in the compactified radius, and `ψ` avoids the singularities of the equation (`ψ=-1`, `k(ψ)=0`).  Then there is one
constant `C` such that, for every grid on that interval (any number of radial and angular points, any layout, debug or release), every
uninitialised memory and every contents of the work and output arrays, the time derivative of the momentum which the solver computes
from the values of `ψ` and `∂_vψ` differs from `∂_v²ψ`, at every grid point at finite radius where `ψ` is C² and solves the covariant
field equation, by at most `C·h⁶`, `h` the radial spacing; the time derivative of the field is `∂_vψ` itself. -/
theorem C84_consistency {q : Phys} (ho : q.Ok) (hlu : q.lo < q.up) (hlo : 0 < q.lo) {nl nm : ℕ} {F G : SModes} (hF : F.Smooth 8 nl nm)
    (hG : G.Smooth 8 nl nm)
    (hk : ∀ R ∈ Set.Icc q.lo q.up, ∀ θ ∈ Set.Icc 0 Real.pi, ∀ φ ∈ Set.Icc 0 (2 * Real.pi), F.fn nl R θ φ ≠ -1 ∧ q.kin (F.fn nl R θ φ) ≠ 0) :
    ∃ C, 0 ≤ C ∧ ∀ (E : Env CR) (P : ParamRec CR) (g : Grid CR) (e : Eom CR) (x : ℕ → ℝ) (A : ℕ → ℕ → ℕ → ℝ), Exact E P g q x A →
      E.useCheb = false → P.nl = nl → P.nm = nm → Eom.Of g P e →
      ∀ (J : Junk (Cx CR)) (f p fk pk : List CR), HoldsC E P q x g f F.at → HoldsC E P q x g p G.at →
      fk.length = P.nx * P.nlat * P.nphi → pk.length = P.nx * P.nlat * P.nphi →
      ∃ e' pk', e.set_k g J f p fk pk = .ok (e', p, pk') ∧
        ∀ (ψ : Pt → ℝ) (v0 r0 : ℝ), 0 ≤ r0 → compR q.L r0 < q.lo → OnSliceFrom ψ v0 r0 q.L nl F G →
        ∀ ix it ip, ix < P.nx → it < P.nlat → ip < P.nphi → ∀ R θ φ : ℝ, g.getR_th_ph ix it ip = .ok ⟨fin R, fin θ, fin φ⟩ →
          1 / 10 ^ 16 < q.L - R → ContDiffAt ℝ 2 ψ ![v0, physR q.L R, θ, φ] →
          eomLhs q.kin q.pot (ψ ![v0, physR q.L R, θ, φ]) (boxG (metric q.M q.a) ψ ![v0, physR q.L R, θ, φ])
            (gradG (metric q.M q.a) ψ ![v0, physR q.L R, θ, φ]) = 0 →
          g.d.at3 p ix it ip = fin (pd 0 ψ ![v0, physR q.L R, θ, φ]) ∧
          ∃ y, g.d.at3 pk' ix it ip = fin y ∧
            |y - pd 0 (pd 0 ψ) ![v0, physR q.L R, θ, φ]| ≤ C * ((q.up - q.lo) / ((P.nx : ℝ) - 1)) ^ 6 := by
  have hL := ho.L_pos
  have hd : 0 ≤ q.up - q.lo := by linarith
  have sm : ∀ (H : SModes), H.Smooth 8 nl nm → ∃ B, 0 ≤ B ∧ ∀ R θ φ, (R, θ, φ) ∈ shellBox q.lo q.up →
      |(H.Dn 7).fn nl R θ φ| ≤ B ∧ |(H.Dn 8).fn nl R θ φ| ≤ B := by
    intro H hH
    obtain ⟨B7, z7, b7⟩ := SModes.bounded (SModes.Smooth.Dn (n := 1) 7 hH) q.lo q.up
    obtain ⟨B8, z8, b8⟩ := SModes.bounded (SModes.Smooth.Dn (n := 0) 8 hH) q.lo q.up
    refine ⟨B7 + B8, by positivity, fun R θ φ h => ⟨?_, ?_⟩⟩
    · linarith [b7 R θ φ h]
    · linarith [b8 R θ φ h]
  obtain ⟨BF, zF, bF⟩ := sm F hF
  obtain ⟨BG, zG, bG⟩ := sm G hG
  obtain ⟨BP, zP, bP⟩ := sm F.dphi hF.dphi
  obtain ⟨B, hB⟩ : ∃ B, B = BF + BG + BP := ⟨_, rfl⟩
  have hB0 : 0 ≤ B := by rw [hB]; positivity
  obtain ⟨C, hC, h⟩ := consistency_core ho hlu hlo hF hG hk (D := 18600 * B * (q.up - q.lo) ^ 6) (by positivity)
  refine ⟨C * (18600 * B), by positivity, ?_⟩
  intro E P g e x A hX hch hnl hnm he J f p fk pk hf hp hfk hpk
  have hn1 : (7 : ℝ) ≤ (P.nx : ℝ) - 1 := by
    have := hX.setup.sizes.nx_min
    rw [hch] at this
    simp only [Bool.false_eq_true, if_false] at this
    have : (8 : ℝ) ≤ P.nx := by exact_mod_cast this
    linarith
  have hh0 : 0 ≤ (q.up - q.lo) / ((P.nx : ℝ) - 1) := by positivity
  have hh1 : (q.up - q.lo) / ((P.nx : ℝ) - 1) ≤ q.up - q.lo := div_le_self hd (by linarith)
  have le : ∀ {H : SModes} {Bx : ℝ}, Bx ≤ B → (∀ R θ φ, (R, θ, φ) ∈ shellBox q.lo q.up → |(H.Dn 7).fn nl R θ φ| ≤ Bx ∧ |(H.Dn 8).fn nl R θ φ| ≤ Bx) →
      H.Smooth 8 nl nm → LineErr E P q H (18600 * B * ((q.up - q.lo) / ((P.nx : ℝ) - 1)) ^ 6) := by
    intro H Bx hBx hb hH
    subst hnl
    exact LineErr.of_fd hX.setup.sizes hch hlu hH hB0 (fun R θ φ h => ((hb R θ φ h).1).trans hBx) (fun R θ φ h => ((hb R θ φ h).2).trans hBx)
  obtain ⟨e', pk', h1, h2⟩ := h E P g e x A hX hnl hnm he _ (by positivity)
    (mul_le_mul_of_nonneg_left (pow_le_pow_left₀ hh0 hh1 6) (by positivity))
    (le (by rw [hB]; linarith) bF hF) (le (by rw [hB]; linarith) bG hG) (le (by rw [hB]; linarith) bP hF.dphi) J f p fk pk hf hp hfk hpk
  refine ⟨e', pk', h1, ?_⟩
  intro ψ v0 r0 hr0 hcr hψ ix it ip hx hit hip R θ φ hc hRL hCd heq
  obtain ⟨m1, y, m2, m3⟩ := h2 ψ v0 r0 hr0 hcr hψ ix it ip hx hit hip R θ φ hc hRL hCd heq
  refine ⟨m1, y, m2, m3.trans (le_of_eq ?_)⟩
  ring

/-! ### non-vacuity -/

theorem SModes.contDiffAt {F : SModes} {nl nm : ℕ} (hF : F.Smooth 8 nl nm) {L : ℝ} (hL : 0 < L) {y : Pt} (hy : 0 < y 1) :
    ContDiffAt ℝ 2 (fun y : Pt => F.fn nl (compR L (y 1)) (y 2) (y 3)) y := by
  have hc : ∀ i : Fin 4, ContDiffAt ℝ 2 (fun y : Pt => y i) y := fun i => (contDiff_apply ℝ ℝ i).contDiffAt
  have hR : ContDiffAt ℝ 2 (fun y : Pt => compR L (y 1)) y := by
    unfold compR
    exact (hc 1).div (contDiffAt_const.add ((hc 1).div_const L)) (by positivity)
  have hp : ∀ u : ℝ → ℝ, ContDiff ℝ (8 : ℕ) u → ContDiffAt ℝ 2 (fun y : Pt => u (compR L (y 1))) y := fun u hu =>
    (hu.of_le (by norm_cast)).contDiffAt.comp y hR
  have hT : ∀ l m, ContDiffAt ℝ 2 (fun y : Pt => ThN l m (y 2)) y := fun l m => (contDiff_ThN l m).contDiffAt.comp y (hc 2)
  have hcs : ∀ m : ℕ, ContDiffAt ℝ 2 (fun y : Pt => Real.cos (m * y 3)) y := fun m =>
    Real.contDiff_cos.contDiffAt.comp y (contDiffAt_const.mul (hc 3))
  have hsn : ∀ m : ℕ, ContDiffAt ℝ 2 (fun y : Pt => Real.sin (m * y 3)) y := fun m =>
    Real.contDiff_sin.contDiffAt.comp y (contDiffAt_const.mul (hc 3))
  simp only [SModes.fn_eq]
  refine ContDiffAt.sum fun l _ => ((hT l 0).mul (hp _ (hF.diff l 0).1)).add (contDiffAt_const.mul (ContDiffAt.sum fun m _ => ?_))
  exact (((hT l m).mul (hcs m)).mul (hp _ (hF.diff l m).1)).sub (((hT l m).mul (hsn m)).mul (hp _ (hF.diff l m).2))

/-- through all smooth data, and at every point off the axis, there is a C² function solving the covariant equation at the point -/
theorem sliceS_realised {F G : SModes} {nl nm : ℕ} (hF : F.Smooth 8 nl nm) (hG : G.Smooth 8 nl nm) {M a L : ℝ} (hM : 0 < M) (hL : 0 < L) (kin pot : ℝ → ℝ)
    (v0 : ℝ) {r θ φ : ℝ} (hr : 0 < r) (hs : 0 < Real.sin θ) :
    ∃ ψ : Pt → ℝ, OnSliceFrom ψ v0 0 L nl F G ∧ (∀ y : Pt, 0 < y 1 → ContDiffAt ℝ 2 ψ y) ∧
      eomLhs kin pot (ψ ![v0, r, θ, φ]) (boxG (metric M a) ψ ![v0, r, θ, φ]) (gradG (metric M a) ψ ![v0, r, θ, φ]) = 0 := by
  let Φ : ℝ → Pt → ℝ := fun c y => F.fn nl (compR L (y 1)) (y 2) (y 3) + (y 0 - v0) * G.fn nl (compR L (y 1)) (y 2) (y 3) + c * (y 0 - v0) ^ 2
  have sl : ∀ c, OnSliceFrom (Φ c) v0 0 L nl F G := by
    refine fun c r θ φ hr => ⟨by simp [Φ], ?_⟩
    refine pd_quad (A := F.fn nl (compR L r) θ φ) (C := c) fun t => ?_
    simp [Function.update, Φ]
    ring
  have cd : ∀ c (y : Pt), 0 < y 1 → ContDiffAt ℝ 2 (Φ c) y := by
    intro c y hy
    have h0 : ContDiffAt ℝ 2 (fun y : Pt => y 0 - v0) y := ((contDiff_apply ℝ ℝ 0).contDiffAt).sub contDiffAt_const
    exact ((SModes.contDiffAt hF hL hy).add (h0.mul (SModes.contDiffAt hG hL hy))).add (contDiffAt_const.mul (h0.pow 2))
  have vv : ∀ c, pd 0 (pd 0 (Φ c)) ![v0, r, θ, φ] = 2 * c := by
    intro c
    have p0 : pd 0 (Φ c) = fun y => G.fn nl (compR L (y 1)) (y 2) (y 3) + 2 * c * (y 0 - v0) := by
      funext y
      refine pd_quad (A := Φ c y) (C := c) fun t => ?_
      simp only [Φ, Function.update_self, Function.update_of_ne (show (1 : Fin 4) ≠ 0 by decide),
        Function.update_of_ne (show (2 : Fin 4) ≠ 0 by decide), Function.update_of_ne (show (3 : Fin 4) ≠ 0 by decide)]
      ring
    rw [p0]
    refine pd_quad (A := G.fn nl (compR L r) θ φ) (C := 0) fun t => ?_
    simp [Function.update]
  have jets : ∀ c, jetOf (Φ c) ![v0, r, θ, φ] = { jetOf (Φ 0) ![v0, r, θ, φ] with vv := 2 * c } := by
    intro c
    obtain ⟨a1, a2, a3, a4, a5, a6, a7, a8, a9⟩ := jet_of_slice (θ := θ) (φ := φ) hF hG hL (le_refl 0) (sl c) hr rfl
    obtain ⟨b1, b2, b3, b4, b5, b6, b7, b8, b9⟩ := jet_of_slice (θ := θ) (φ := φ) hF hG hL (le_refl 0) (sl 0) hr rfl
    have a0 : (jetOf (Φ c) ![v0, r, θ, φ]).vv = 2 * c := vv c
    generalize jetOf (Φ c) ![v0, r, θ, φ] = j at *
    generalize jetOf (Φ 0) ![v0, r, θ, φ] = j' at *
    cases j; cases j'
    simp only at *
    subst a0 a1 a2 a3 a4 a5 a6 a7 a8 a9 b1 b2 b3 b4 b5 b6 b7 b8 b9
    rfl
  have hS := Sig_pos' (a := a) (θ := θ) hr
  have hN : 0 < 1 + 2 * M * r / Sig a r θ := by positivity
  have lin : ∀ c, eomLhs kin pot (Φ c ![v0, r, θ, φ]) (boxG (metric M a) (Φ c) ![v0, r, θ, φ]) (gradG (metric M a) (Φ c) ![v0, r, θ, φ]) =
      eomLhs kin pot (F.fn nl (compR L r) θ φ) (box M a r θ { jetOf (Φ 0) ![v0, r, θ, φ] with vv := 0 })
        (grad2 M a r θ (jetOf (Φ 0) ![v0, r, θ, φ])) - (1 + 2 * M * r / Sig a r θ) * (2 * c) := by
    intro c
    obtain ⟨b1, b2⟩ := C77_wave_operator M a (x := ![v0, r, θ, φ]) (cd c ![v0, r, θ, φ] hr) hr hs
    rw [b1, b2, jets c, (sl c r θ φ hr).1]
    show eomLhs kin pot _ (box M a r θ _) (grad2 M a r θ _) = _
    unfold eomLhs box grad2
    ring
  obtain ⟨c, hc⟩ : ∃ c, eomLhs kin pot (F.fn nl (compR L r) θ φ) (box M a r θ { jetOf (Φ 0) ![v0, r, θ, φ] with vv := 0 })
        (grad2 M a r θ (jetOf (Φ 0) ![v0, r, θ, φ])) - (1 + 2 * M * r / Sig a r θ) * (2 * c) = 0 := by
    generalize eomLhs kin pot (F.fn nl (compR L r) θ φ) _ _ = w
    exact ⟨w / (1 + 2 * M * r / Sig a r θ) / 2, by field_simp; ring⟩
  exact ⟨Φ c, sl c, cd c, (lin c).trans hc⟩

/-- modes of the example: `l=2,m=1` with coefficient `ε (sin R + i e^{-R})`, `l=3,m=0` with coefficient `ε cos R` -/
noncomputable def waveF (ε : ℝ) : SModes := fun l m => if l = 2 ∧ m = 1 then (fun R => ε * Real.sin R, fun R => ε * Real.exp (-R))
  else if l = 3 ∧ m = 0 then (fun R => ε * Real.cos R, fun _ => 0) else (fun _ => 0, fun _ => 0)

theorem waveF_smooth (ε : ℝ) {k : ℕ} : (waveF ε).Smooth k 7 7 := by
  refine ⟨fun l m => ?_, fun l R => ?_, fun l m hl R => ?_⟩
  · unfold waveF
    split_ifs
    · exact ⟨contDiff_const.mul Real.contDiff_sin, contDiff_const.mul (Real.contDiff_exp.comp contDiff_neg)⟩
    · exact ⟨contDiff_const.mul Real.contDiff_cos, contDiff_const⟩
    · exact ⟨contDiff_const, contDiff_const⟩
  · unfold waveF
    split_ifs <;> simp_all
  · have : ¬ (l = 2 ∧ m = 1) ∧ ¬ (l = 3 ∧ m = 0) := by
      unfold TopMode at hl
      omega
    simp [waveF, this.1, this.2]

theorem waveF_scale (ε R θ φ : ℝ) : (waveF ε).fn 7 R θ φ = ε * (waveF 1).fn 7 R θ φ := by
  have h1 : ∀ l m R, ((waveF ε) l m).1 R = ε * ((waveF 1) l m).1 R := by
    intro l m R; unfold waveF; split_ifs <;> simp
  have h2 : ∀ l m R, ((waveF ε) l m).2 R = ε * ((waveF 1) l m).2 R := by
    intro l m R; unfold waveF; split_ifs <;> simp
  rw [SModes.fn_eq, SModes.fn_eq, Finset.mul_sum]
  refine Finset.sum_congr rfl fun l _ => ?_
  rw [mul_add, h1, mul_left_comm ε 2, Finset.mul_sum _ _ ε]
  congr 1
  · ring
  · congr 1
    refine Finset.sum_congr rfl fun m _ => ?_
    rw [h1, h2]; ring

/-- the hypotheses of C84 and C90 can be met, for each of the two radial discretisations: a non-polynomial, non-axisymmetric field on the 33x8x16 grid, arrays holding it, and a function through it that
solves the covariant equation at the grid point `(3,2,5)`. -/
theorem consistency_demo (cheb : Bool) : ∃ ε : ℝ, ε ≠ 0 ∧ demoQ.Ok ∧ demoQ.lo < demoQ.up ∧ 0 < demoQ.lo ∧ (∀ k, (waveF ε).Smooth k 7 7) ∧ (∀ k, (waveF ε).dphi.Smooth k 7 7) ∧
    (∀ R ∈ Set.Icc demoQ.lo demoQ.up, ∀ θ ∈ Set.Icc 0 Real.pi, ∀ φ ∈ Set.Icc 0 (2 * Real.pi), (waveF ε).fn 7 R θ φ ≠ -1 ∧
      demoQ.kin ((waveF ε).fn 7 R θ φ) ≠ 0) ∧
    ∃ (E : Env CR) (x : ℕ → ℝ) (A : ℕ → ℕ → ℕ → ℝ) (g : Grid CR) (e : Eom CR) (f p : List CR) (ψ : Pt → ℝ) (R θ φ : ℝ),
    E.useCheb = cheb ∧ Exact E demoP g demoQ x A ∧ demoP.nl = 7 ∧ demoP.nm = 7 ∧ Eom.Of g demoP e ∧
    HoldsC E demoP demoQ x g f (waveF ε).at ∧ HoldsC E demoP demoQ x g p (waveF ε).dphi.at ∧
    OnSliceFrom ψ 0 0 demoQ.L 7 (waveF ε) (waveF ε).dphi ∧ g.getR_th_ph 3 2 5 = .ok ⟨fin R, fin θ, fin φ⟩ ∧
    1 / 10 ^ 16 < demoQ.L - R ∧ ContDiffAt ℝ 2 ψ ![0, physR demoQ.L R, θ, φ] ∧
    eomLhs demoQ.kin demoQ.pot (ψ ![0, physR demoQ.L R, θ, φ]) (boxG (metric demoQ.M demoQ.a) ψ ![0, physR demoQ.L R, θ, φ])
      (gradG (metric demoQ.M demoQ.a) ψ ![0, physR demoQ.L R, θ, φ]) = 0 := by
  obtain ⟨B, hB0, hB⟩ := SModes.bounded (waveF_smooth 1 (k := 8)) demoQ.lo demoQ.up
  obtain ⟨ε, hε, hεB⟩ : ∃ ε : ℝ, 0 < ε ∧ ε * B < 1 := ⟨1 / (B + 1), by positivity, by rw [one_div_mul_eq_div, div_lt_one (by positivity)]; linarith⟩
  have hlo : compR 100 (9/10) = 900 / 1009 := by unfold compR; norm_num
  have hlu : demoQ.lo < demoQ.up := by simp only [demoQ, hlo]; norm_num
  obtain ⟨E, x, A, g, e, h1, h2, h3, h4, h5, h6, h7⟩ := demo_setup true false cheb
  have hH : ∀ c : ℝ → ℕ → ℕ → ℂ, ∃ f, HoldsC E demoP demoQ x g f c := by
    intro c
    have ht := h5.total
    refine ⟨g.d.mk3 fun ix it ip => fin (fieldR demoP.nl demoP.nl (c (radPt E.useCheb demoP.nx demoQ.lo demoQ.up ix)) (Real.arccos (x it))
      (phiN demoP.nphi ip)), by rw [← ht]; simp, fun ix it ip a b c => ?_⟩
    exact h5.wf.ok.at3_mk3 (h5.inR a b c)
  obtain ⟨f, hf⟩ := hH (waveF ε).at
  obtain ⟨p, hp⟩ := hH (waveF ε).dphi.at
  have hX : Exact E demoP g demoQ x A := ⟨h5, h4, demo_is, hlu.ne, demo_ok.L_pos.ne'⟩
  have hR := radPt_demo E.useCheb
  have hRL : radPt E.useCheb demoP.nx demoQ.lo demoQ.up 3 < demoQ.L := by
    have : demoQ.L = 100 := rfl
    linarith [hR.2]
  have hin := h4.math.inside 2 (by decide)
  have hs : 0 < Real.sin (Real.arccos (x 2)) := by
    rw [Real.sin_arccos]
    exact Real.sqrt_pos.mpr (one_sub_sq_pos hin.1 hin.2)
  obtain ⟨ψ, s1, s2, s3⟩ := sliceS_realised (M := demoQ.M) (a := demoQ.a) (waveF_smooth ε) (waveF_smooth ε).dphi demo_ok.M_pos demo_ok.L_pos demoQ.kin demoQ.pot 0
    (φ := phiN demoP.nphi 5) (physR_pos demo_ok.L_pos hR.1 hRL) hs
  refine ⟨ε, hε.ne', demo_ok, hlu, by simp only [demoQ, hlo]; norm_num, fun _ => waveF_smooth ε, fun _ => (waveF_smooth ε).dphi, fun R a θ b φ c => ⟨?_, ?_⟩, E, x, A, g, e, f, p, ψ, _, _, _, h3, hX,
    rfl, rfl, h7, hf, hp, s1, h5.coords demo_is h4 (by decide) (by decide) (by decide), ?_, s2 _ (physR_pos demo_ok.L_pos hR.1 hRL), s3⟩
  · rw [waveF_scale]
    intro h
    have h1 := hB R θ φ ⟨a, b, c⟩
    have h2 : |ε * (waveF 1).fn 7 R θ φ| ≤ ε * B := by rw [abs_mul, abs_of_pos hε]; exact mul_le_mul_of_nonneg_left h1 hε.le
    rw [h] at h2
    norm_num at h2
    linarith
  · simp [Phys.kin, Kerr.kin, demoQ]
  · have : demoQ.L = 100 := rfl
    have := hR.2
    linarith

/-- non-vacuity of C84 -/
example := consistency_demo false

end SFK
