import Verif.Lemmas.Modes
import Verif.Props.Spherical
/-
Lemmas for C106: operators on a single spherical harmonic.
-/
namespace SFK
open Scalar CR

/-- the coefficients of `shapeY l m α β` -/
noncomputable def realC (l m : ℕ) (α β : ℝ) (l' m' : ℕ) : ℂ :=
  if l' = l ∧ m' = m then (if m = 0 then (α : ℂ) else ((α : ℂ) - Complex.I * β) / 2) else 0

theorem realC_im (l m : ℕ) (α β : ℝ) (l' : ℕ) : (realC l m α β l' 0).im = 0 := by
  unfold realC
  split_ifs with h1 h2
  · simp
  · exact absurd h1.2.symm h2
  · simp

theorem shapeY_field {L M l m : ℕ} (hl : l ≤ L) (hml : m ≤ l) (hm : m ≤ M) (α β θ φ : ℝ) :
    fieldR L M (realC l m α β) θ φ = shapeY l m α β θ φ := by
  unfold fieldR
  rw [Finset.sum_eq_single l]
  · by_cases h0 : m = 0
    · subst h0
      rw [Finset.sum_eq_zero fun m' hm' => by
        rw [Finset.mem_Icc] at hm'
        unfold realC
        rw [if_neg (by omega), zero_mul]]
      unfold realC shapeY
      simp
      ring
    · rw [Finset.sum_eq_single m]
      · unfold realC shapeY Ylm ThZ
        rw [if_neg (by omega : ¬ (l = l ∧ 0 = m)), if_pos ⟨rfl, rfl⟩, if_neg h0]
        simp only [Nat.cast_nonneg, if_true, Int.toNat_natCast, Int.cast_natCast]
        rw [show Complex.I * (m : ℂ) * (φ : ℂ) = ((m * φ : ℝ) : ℂ) * Complex.I by push_cast; ring, Complex.exp_mul_I, ← Complex.ofReal_cos, ← Complex.ofReal_sin]
        simp only [Complex.mul_re, Complex.mul_im, Complex.add_re, Complex.add_im, Complex.ofReal_re, Complex.ofReal_im, Complex.I_re, Complex.I_im,
          Complex.sub_re, Complex.sub_im, Complex.zero_re, Complex.div_ofNat_re, Complex.div_ofNat_im]
        ring
      · intro m' _ hne
        unfold realC
        rw [if_neg (fun h => hne h.2), zero_mul]
      · intro h
        exact absurd (Finset.mem_Icc.mpr ⟨by omega, by omega⟩) h
  · intro l' _ hne
    rw [Finset.sum_eq_zero fun m' _ => by unfold realC; rw [if_neg (fun h => hne h.1), zero_mul]]
    unfold realC
    rw [if_neg (fun h => hne h.1)]
    simp
  · intro h
    exact absurd (Finset.mem_range.mpr (by omega)) h

theorem anaN_fieldR {s : Shtns CR} {contig : Bool} {nlat nphi : ℕ} {x : ℕ → ℝ} {A : ℕ → ℕ → ℕ → ℝ} (h : s.Math contig nlat nphi x A)
    {c : ℕ → ℕ → ℂ} (hre : ∀ l, l ≤ s.lmax → (c l 0).im = 0) {l m : ℕ} (hl : l ≤ s.lmax) (hml : m ≤ l) (hm : m ≤ s.mmax) :
    anaN A nlat nphi (fun it ip => fieldR s.lmax s.mmax c (Real.arccos (x it)) (phiN nphi ip)) l m = c l m := by
  unfold anaN
  have key := analysis_fieldC (L := s.lmax) (M := s.mmax) h.nphi_gt h.quad (extC s.mmax c)
    (fun l m _ => extC_zero c l m) l m hl (by simpa using hml) (by simpa using hm)
  have hw : ∀ it, wtZ A l (m : ℤ) it = A l m it := by intro it; unfold wtZ; rw [if_pos (by omega)]; simp
  simp only [hw, ← fieldR_eq, Int.cast_natCast] at key
  rw [key]
  unfold extC
  rw [if_pos (by simpa using hm)]
  by_cases hm0 : m = 0
  · subst hm0
    simp only [Nat.cast_zero, if_true]
    apply Complex.ext
    · simp
    · simp [hre l hl]
  · rw [if_neg (by omega), if_pos (by omega)]; simp

/-- a multiplier acting on coefficients multiplies a single harmonic by a number -/
theorem mulN_real {s : Sphere CR} {contig : Bool} {x : ℕ → ℝ} {A : ℕ → ℕ → ℕ → ℝ} (hs : s.Wf) (h : s.sht.Math contig s.nlat s.nphi x A)
    {μ : ℕ → ℕ → ℂ} {κ : ℝ} {l m : ℕ} (hκ : (if l < s.lmax ∧ m < s.mmax then μ l m else 1) = (κ : ℂ)) (hl : l ≤ s.lmax) (hml : m ≤ l) (hm : m ≤ s.mmax)
    (α β a : ℝ) (it ip : ℕ) :
    mulN s x A μ (fun it ip => a * shapeY l m α β (Real.arccos (x it)) (phiN s.nphi ip)) it ip
      = κ * a * shapeY l m α β (Real.arccos (x it)) (phiN s.nphi ip) := by
  have e1 : (fun it ip => a * shapeY l m α β (Real.arccos (x it)) (phiN s.nphi ip))
      = fun it ip => fieldR s.sht.lmax s.sht.mmax (fun l' m' => (a : ℂ) * realC l m α β l' m') (Real.arccos (x it)) (phiN s.nphi ip) := by
    rw [fieldR_smul_fun]
    funext it ip
    beta_reduce
    rw [shapeY_field (by rw [hs.api.lmax_eq]; exact hl) hml (by rw [hs.api.mmax_eq]; exact hm)]
  unfold mulN
  rw [e1]
  rw [← shapeY_field (L := s.lmax) (M := s.mmax) hl hml hm, mul_assoc]
  have e2 : κ * (a * fieldR s.lmax s.mmax (realC l m α β) (Real.arccos (x it)) (phiN s.nphi ip))
      = fieldR s.lmax s.mmax (fun l' m' => ((κ * a : ℝ) : ℂ) * realC l m α β l' m') (Real.arccos (x it)) (phiN s.nphi ip) := by
    rw [fieldR_smul_fun]; ring
  rw [e2]
  apply fieldR_congr
  intro l' m' h1 h2 h3
  rw [anaN_fieldR h (fun k _ => by rw [Complex.im_ofReal_mul, realC_im, mul_zero]) (by rw [hs.api.lmax_eq]; omega) (by omega) (by rw [hs.api.mmax_eq]; omega)]
  by_cases hh : l' = l ∧ m' = m
  · obtain ⟨rfl, rfl⟩ := hh
    push_cast
    rw [← hκ]
    split_ifs <;> ring
  · have : realC l m α β l' m' = 0 := by unfold realC; rw [if_neg hh]
    rw [this]
    simp

section grid
variable {E : Env CR} {P : ParamRec CR} {g : Grid CR} {q : Phys} {x : ℕ → ℝ} {A : ℕ → ℕ → ℕ → ℝ} {e : Eom CR}

/-- the right-hand side of the free equation -/
theorem rhs_free (h : Exact E P g q x A) (he : Eom.Of g P e) (h1 : q.km1 = 0) (h2 : q.k1 = 0) (h3 : q.k2 = 0) (h4 : q.V3 = 0) (h5 : q.V4 = 0)
    {i : ℕ} (hi : i < g.d.total) {F Q : List CR} {yf yp y1 y2 y3 y4 y5 y7 : ℝ} (hfin : AllFin (e.rhs g F Q)) (a1 : gv F i = fin yf) (a2 : gv Q i = fin yp)
    (a3 : gv (g.prP F) i = fin y1) (a4 : gv (g.prP Q) i = fin y2) (a5 : gv (g.p2rP F) i = fin y3) (a6 : gv (g.pphiP F) i = fin y4)
    (a7 : gv (g.prP (g.pphiP F)) i = fin y5) (a9 : gv (g.plapP F) i = fin y7) : ∃ cc : Coef ℝ,
        ((gv e.coef i).p_p = fin cc.p_p ∧ (gv e.coef i).p_dr_f = fin cc.p_dr_f ∧ (gv e.coef i).p_dr_p = fin cc.p_dr_p ∧
          (gv e.coef i).p_dr_dr_f = fin cc.p_dr_dr_f ∧ (gv e.coef i).p_dphi_dr_f = fin cc.p_dphi_dr_f ∧ (gv e.coef i).p_lap_f = fin cc.p_lap_f ∧
          (gv e.coef i).pre = fin cc.pre) ∧
        gv (e.rhs g F Q) i = fin (cc.p_p * yp + cc.p_dr_f * y1 + cc.p_dr_p * y2 + cc.p_dr_dr_f * y3 + cc.p_dphi_dr_f * y5 + cc.p_lap_f * y7
          - cc.pre * (1 / q.k0 * (q.V2 * yf))) := by
  obtain ⟨q1, q2, q3, q4, q5, q6, q7, _⟩ := he.par h.setup h.phys
  rw [h1] at q1
  rw [h2] at q3
  rw [h3] at q4
  rw [h4] at q6
  rw [h5] at q7
  obtain ⟨rr, hrr⟩ := hfin.isF (n := g.d.total) (by simp)
  have kf := hrr.2 i hi
  have kf0 := kf
  unfold Eom.rhs at kf
  rw [gv_tab hi] at kf
  obtain ⟨cc, kp, ik, vp, f', p', r', vr', rr', ph', rph', X', lap', ⟨c1, c2, c3, c4, c5, c6, _, _, _, _, _, c12⟩, ⟨m1, m2, m3⟩,
    ⟨v1, v2, v3, v4, v5, v6, v7, v8, v9⟩, kf⟩ := pk_fin kf
  refine ⟨cc, ⟨c1, c2, c3, c4, c5, c6, c12⟩, ?_⟩
  rw [a2, fin_inj] at v1
  rw [a3, fin_inj] at v2
  rw [a4, fin_inj] at v3
  rw [a5, fin_inj] at v4
  rw [a6, fin_inj] at v5
  rw [a7, fin_inj] at v6
  rw [a9, fin_inj] at v8
  rw [a1, fin_inj] at v9
  rw [kf0, kf, fin_inj]
  rw [a1] at m1 m2 m3
  have hne : yf + 1 ≠ 0 := by
    unfold Eom.inverseK at m2
    obtain ⟨_, _, _, m2, _, _⟩ := div_fin m2
    obtain ⟨_, _, m2, _, _⟩ := add_fin m2
    obtain ⟨_, _, m2, _, _⟩ := add_fin m2
    obtain ⟨_, _, _, m2, _⟩ := add_fin m2
    obtain ⟨_, b, _, m2, hb, _⟩ := div_fin m2
    rw [fin_ofNat_one, fin_add, fin_inj] at m2
    rw [m2]; exact hb
  have hik : ik = 1 / q.k0 := by
    unfold Eom.inverseK at m2
    rw [q1, q2, q3, q4] at m2
    simp only [fin_ofNat_one, fin_ofNat', fin_add, fin_div _ _ hne, fin_mul, fin_pown, fin_div _ _ (two_ne_zero (α := ℝ))] at m2
    rw [show q.k0 + 0 / (yf + 1) + 0 * yf + 0 / 2 * yf ^ 2 = q.k0 by simp] at m2
    obtain ⟨_, b, n1, n2, _, n3⟩ := div_fin m2
    rw [fin_inj] at n1 n2
    rw [n3, ← n1, ← n2]
  have hkp : kp = 0 := by
    unfold Eom.kprime at m1
    rw [q1, q3, q4] at m1
    simp only [fin_ofNat_one, fin_neg, fin_add, fin_pown, fin_div _ _ (pow_ne_zero 2 hne), fin_mul, fin_inj] at m1
    rw [← m1]
    simp
  have hvp : vp = 1 / q.k0 * (q.V2 * yf) := by
    unfold Eom.vprime at m3
    rw [m2, q5, q6, q7] at m3
    simp only [fin_ofNat', fin_mul, fin_pown, fin_add, fin_div _ _ (two_ne_zero (α := ℝ)), fin_div _ _ (show (6:ℝ) ≠ 0 by norm_num), fin_inj] at m3
    rw [← m3, hik]
    ring
  rw [hkp, hvp, ← v1, ← v2, ← v3, ← v4, ← v6, ← v8]
  ring

/-- the coefficients around a hole that does not rotate -/
theorem coef_radial (h : Exact E P g q x A) (he : Eom.Of g P e) (ho : q.Ok) (h0 : 0 < q.lo) (h1 : q.lo < q.up) (h2 : q.up ≤ q.L) (ha : q.a = 0) :
    ∃ c : ℕ → Coef ℝ, ∀ i, i < g.d.total → gv e.coef i = (c (g.d.dX i)).map fin ∧ (c (g.d.dX i)).p_dphi_dr_f = 0 := by
  have e1 := h.nx
  have e2 := h.nlat
  have e3 := h.nphi
  have hu : ∀ ix, ix < P.nx → ∃ u : ℝ, 0 ≤ u ∧ invR (fin q.L) (fin q.L) (fin (radPt E.useCheb P.nx q.lo q.up ix)) = fin u := fun ix hx => by
    obtain ⟨m1, m2⟩ := radPt_mem (c := E.useCheb) h.setup.sizes.two.1 h1.le hx
    exact invR_nonneg (R := radPt E.useCheb P.nx q.lo q.up ix) ho.L_pos (by linarith) (by linarith)
  obtain ⟨u, hu⟩ : ∃ u : ℕ → ℝ, ∀ ix, ix < P.nx → 0 ≤ u ix ∧ invR (fin q.L) (fin q.L) (fin (radPt E.useCheb P.nx q.lo q.up ix)) = fin (u ix) := by
    classical
    refine ⟨fun ix => if hx : ix < P.nx then (hu ix hx).choose else 0, fun ix hx => ?_⟩
    beta_reduce
    rw [dif_pos hx]
    exact (hu ix hx).choose_spec
  refine ⟨fun ix => coefU q.M 0 0 (u ix), fun i hi => ?_⟩
  obtain ⟨k1, k2⟩ := g.d.dec3 hi
  have hx : g.d.dX i < P.nx := by rw [← e1]; exact k1.1
  have ht : g.d.dT i < P.nlat := by rw [← e2]; exact k1.2.1
  have hp : g.d.dP i < P.nphi := by rw [← e3]; exact k1.2.2
  obtain ⟨hu0, hv⟩ := hu _ hx
  have hc := he.coef_at h.setup hx ht hp (h.setup.coords h.phys h.env hx ht hp)
  dsimp only at hc
  rw [h.phys.M, h.phys.a, h.phys.L, hv, coefOf_eq ho.M_pos ho.spin ho.noRound hu0, coefR_eq_map, ha, coefU_nospin _ _ 0] at hc
  refine ⟨?_, ?_⟩
  · rw [← hc]
    unfold Dims.at3
    rw [h.setup.wf.ok.indx3 k1, k2]
  · unfold coefU
    simp

/-- the array is the angular function `S` times a radial profile -/
def HarmF (d : Dims) (S : ℕ → ℕ → ℝ) (y : ℕ → ℝ) (v : List CR) : Prop := IsF d.total v fun i => y (d.dX i) * S (d.dT i) (d.dP i)

theorem harm_lines {d : Dims} (h : d.Ok) {T : List CR → List CR} (hT : LinR d.nx T) :
    ∃ D : (ℕ → ℝ) → ℕ → ℝ, ∀ S y v, HarmF d S y v → HarmF d S (D y) (d.ofLines fun it ip => T (d.lineOf v it ip)) := by
  obtain ⟨D, a, b⟩ := hT
  refine ⟨D, fun S y v hv => ⟨by simp, fun i hi => ?_⟩⟩
  obtain ⟨h1, h2⟩ := d.dec3 hi
  unfold Dims.ofLines Dims.mk3
  rw [gv_tab hi]
  beta_reduce
  rw [(a _ (fun ix => S (d.dT i) (d.dP i) * y ix + 0 * y ix) ⟨by simp, fun ix hx => ?_⟩).2 _ h1.1]
  · rw [b _ _ _ _ _ h1.1, fin_inj]; ring
  · have hr : d.InR ix (d.dT i) (d.dP i) := ⟨hx, h1.2.1, h1.2.2⟩
    unfold Dims.lineOf
    rw [gv_tab hx, IsF.at3 h hv hr, d.dX_pos3 hr, d.dT_pos3 hr, d.dP_pos3 hr, fin_inj]
    ring

theorem harm_shells (h : Exact E P g q x A) {T : List CR → List CR} {μ : ℕ → ℕ → ℂ} (hT : ∀ v u, Is2 g.d.contig g.sphere.nlat g.sphere.nphi v u →
    Is2 g.d.contig g.sphere.nlat g.sphere.nphi (T v) (mulN g.sphere x A μ u)) {l m : ℕ} {κ : ℝ}
    (hκ : (if l < P.nl ∧ m < P.nm then μ l m else 1) = (κ : ℂ)) (hl : l ≤ P.nl) (hml : m ≤ l) (hm : m ≤ P.nm) (α β : ℝ) {y : ℕ → ℝ} {v : List CR}
    (hv : HarmF g.d (fun it ip => shapeY l m α β (Real.arccos (x it)) (phiN g.d.nphi ip)) y v) :
    HarmF g.d (fun it ip => shapeY l m α β (Real.arccos (x it)) (phiN g.d.nphi ip)) (fun ix => κ * y ix) (g.d.ofShells fun ix => T (g.d.shellOf v ix)) := by
  have hw := h.setup.wf
  have hlm : g.sphere.lmax = P.nl := by rw [hw.lmax, h.setup.dims]
  have hmm : g.sphere.mmax = P.nm := by rw [hw.mmax, h.setup.dims]
  have hT' := hT
  rw [hw.nlat, hw.nphi] at hT'
  refine (lift_shells hw.ok _ hT' v _ hv).congr fun i hi => ?_
  obtain ⟨k1, k2⟩ := g.d.dec3 hi
  beta_reduce
  rw [mulN_congr μ (w := fun it ip => y (g.d.dX i) * shapeY l m α β (Real.arccos (x it)) (phiN g.sphere.nphi ip)) fun it ip a b => by
    have hr : g.d.InR (g.d.dX i) it ip := ⟨k1.1, by rw [← hw.nlat]; exact a, by rw [← hw.nphi]; exact b⟩
    rw [g.d.dX_pos3 hr, g.d.dT_pos3 hr, g.d.dP_pos3 hr, hw.nphi]]
  rw [mulN_real hw.sph h.math (by rw [hlm, hmm]; exact hκ) (by rw [hlm]; exact hl) hml (by rw [hmm]; exact hm), hw.nphi]

end grid

end SFK
