import Verif.Lemmas.Env
import Verif.Model.Launcher
/-
C07-C09, C30-C32: coordinates, compactification and grid operators.
-/
namespace SFK
open Scalar CR Polynomial

/-! ## C07 stored coordinates -/

section generic
variable {α : Type} [Scalar α] {E : Env α} {nx nl nm nlat nphi : Nat}

/-- C07: for every grid point the stored `(R,theta,phi)` is (radial point `ix`, polar node `it`, azimuthal node `ip`) and
the stored Cartesian triple is computed from them; the `i`-th CSV label `(R,l)`, `i=ix*nl+l`, is (radial point `ix`, `l`),
and `(R,theta)`, `(theta,phi)` tables belong to their points.  Bitwise, for every arithmetic. -/
theorem C07_stored_coordinates (hE : E.Sized nx nl nm nlat nphi) (hz : Sizes E.useCheb nx nl nlat nphi) (cl lo up : α) :
    ∃ g, Grid.ctor E cl lo up nx nl nm nlat nphi = .ok g ∧ ∃ (R th ph : Nat → α),
      (∀ ix, ix < nx → g.radial.pt ix = .ok (R ix)) ∧ (∀ it, it < nlat → g.sphere.theta it = .ok (th it)) ∧
      (∀ ip, g.sphere.phi ip = ph ip) ∧
      (∀ ix it ip, ix < nx → it < nlat → ip < nphi →
        rd g.R_th_ph (g.d.indx_R_th_ph ix it ip) = .ok ⟨R ix, th it, ph ip⟩ ∧
        rd g.x_y_z (g.d.indx_R_th_ph ix it ip) = .ok ⟨R ix * cos (ph ip) * sin (th it), R ix * sin (ph ip) * sin (th it),
          R ix * cos (th it)⟩) ∧
      (∀ it ip, it < nlat → ip < nphi → rd g.th_ph (g.d.indx_th_ph it ip) = .ok ⟨th it, ph ip⟩) ∧
      (∀ ix it, ix < nx → it < nlat → rd g.R_th (nlat * ix + it) = .ok ⟨R ix, th it⟩ ∧
        rd g.x_z (nlat * ix + it) = .ok ⟨R ix * sin (th it), R ix * cos (th it)⟩) ∧
      (∀ ix l, ix < nx → l < nl → rd g.R_l (nl * ix + l) = .ok ⟨R ix, dbl l⟩ ∧
        rd g.n_l (nl * ix + l) = .ok ⟨dbl ix, dbl l⟩) ∧
      g.R_th_ph.length = nx * nlat * nphi ∧ g.R_l.length = nx * nl := by
  obtain ⟨g, e, hw, hd, _, _, _⟩ := Grid.ctor_wf hE hz cl lo up
  have hdx : g.d.nx = nx := by rw [hd]
  have hdl : g.d.nlat = nlat := by rw [hd]
  have hdp : g.d.nphi = nphi := by rw [hd]
  have hdn : g.d.nl = nl := by rw [hd]
  refine ⟨g, e, g.radial.ptV, g.thV, g.sphere.phi, ?_, ?_, fun _ => rfl, ?_, ?_, ?_, ?_, ?_, ?_⟩
  · intro ix hx
    exact hw.rad.pt_eq (by rw [hdx]; exact hx)
  · intro it ht
    exact Grid.theta_eq (d := g.d) hw.sph hw.nlat (by rw [hdl]; exact ht)
  · intro ix it ip hx ht hp
    have hr : g.d.InR ix it ip := ⟨by rw [hdx]; exact hx, by rw [hdl]; exact ht, by rw [hdp]; exact hp⟩
    rw [hw.R_th_ph, hw.x_y_z, hw.ok.rd3 (by simp) hr, hw.ok.rd3 (by simp) hr, hw.ok.at3_mk3 hr, hw.ok.at3_mk3 hr]
    exact ⟨rfl, rfl⟩
  · intro it ip ht hp
    rw [← hdl] at ht
    rw [← hdp] at hp
    rw [hw.th_ph, rd_ok (by rw [Dims.mk2_length, hw.ok.indx2 ht hp]; exact g.d.pos2_lt ht hp)]
    exact congrArg _ (hw.ok.at2_mk2 ht hp)
  · intro ix it hx ht
    have hb : nlat * ix + it < nx * nlat := Dims.mul_add_lt hx ht
    rw [hw.R_th, hw.x_z, hdx, hdl, rd_tab hb, rd_tab hb, (Dims.div_mod_lemma ht).1, (Dims.div_mod_lemma ht).2]
    exact ⟨rfl, rfl⟩
  · intro ix l hx hl
    have hb : nl * ix + l < nx * nl := Dims.mul_add_lt hx hl
    rw [hw.R_l, hw.n_l, hdx, hdn, rd_tab hb, rd_tab hb, (Dims.div_mod_lemma hl).1, (Dims.div_mod_lemma hl).2]
    exact ⟨rfl, rfl⟩
  · rw [hw.R_th_ph, Dims.mk3_length]
    unfold Dims.total
    rw [hdx, hdl, hdp]
  · rw [hw.R_l, tab_length, hdx, hdn]

end generic

section real
variable {E : Env CR} {nx nl nm nlat nphi : ℕ} {x : ℕ → ℝ} {A : ℕ → ℕ → ℕ → ℝ}

/-- C07, exact arithmetic: the stored triple is `(R_ix, arccos x_it, 2π ip/nphi)` with `R_ix` the uniform (or Chebyshev)
point, the Cartesian triple is its spherical-to-Cartesian image and has norm `|R_ix|`. -/
theorem C07_coordinate_values (hE : E.Exact nx nl nm nlat nphi x A) (hz : Sizes E.useCheb nx nl nlat nphi) (L lo up : ℝ) :
    ∃ g, Grid.ctor E (fin L) (fin lo) (fin up) nx nl nm nlat nphi = .ok g ∧
      ∀ ix it ip, ix < nx → it < nlat → ip < nphi → ∃ X Y Z : ℝ,
        rd g.R_th_ph (g.d.indx_R_th_ph ix it ip)
          = .ok ⟨fin (radPt E.useCheb nx lo up ix), fin (Real.arccos (x it)), fin (2 * Real.pi * ip / nphi)⟩ ∧
        rd g.x_y_z (g.d.indx_R_th_ph ix it ip) = .ok ⟨fin X, fin Y, fin Z⟩ ∧
        X = radPt E.useCheb nx lo up ix * Real.sin (Real.arccos (x it)) * Real.cos (2 * Real.pi * ip / nphi) ∧
        Y = radPt E.useCheb nx lo up ix * Real.sin (Real.arccos (x it)) * Real.sin (2 * Real.pi * ip / nphi) ∧
        Z = radPt E.useCheb nx lo up ix * Real.cos (Real.arccos (x it)) ∧
        X ^ 2 + Y ^ 2 + Z ^ 2 = radPt E.useCheb nx lo up ix ^ 2 := by
  obtain ⟨g, e, R, th, ph, h1, h2, h3, h4, _⟩ := C07_stored_coordinates hE.sized hz (fin L) (fin lo) (fin up)
  obtain ⟨g', e', hw, hd, _, hr, hsht, _⟩ := Grid.ctor_wf hE.sized hz (fin L) (fin lo) (fin up)
  rw [e] at e'
  injection e' with e'
  subst e'
  refine ⟨g, e, fun ix it ip hx ht hp => ?_⟩
  have hR : R ix = fin (radPt E.useCheb nx lo up ix) := by
    have a := h1 ix hx
    rw [hw.rad.pt_eq (by rw [hd]; exact hx), hr, radialOf_pt hz.two.1 hz.two.2 lo up hx] at a
    injection a with a
    exact a.symm
  have hT : th it = fin (Real.arccos (x it)) := by
    have a := h2 it ht
    rw [Grid.theta_eq (d := g.d) hw.sph hw.nlat (by rw [hd]; exact ht), hsht, hE.math.ct it ht,
      fin_acos _ (hE.math.inside it ht).1.le (hE.math.inside it ht).2.le] at a
    injection a with a
    exact a.symm
  have hP : ph ip = fin (2 * Real.pi * ip / nphi) := by
    rw [← h3 ip]
    unfold Sphere.phi
    have : ((nphi : ℝ)) ≠ 0 := by exact_mod_cast (by omega : nphi ≠ 0)
    rw [hsht, hE.sized.api.nphi_eq, hE.sized.api.mres_eq, Nat.mul_one]
    simp only [fin_dbl, fin_ofNat', fin_mul, fin_pi, fin_div _ _ this, fin_inj]
    ring
  obtain ⟨a, b⟩ := h4 ix it ip hx ht hp
  rw [hR, hT, hP] at a b
  simp only [fin_cos, fin_sin, fin_mul] at b
  refine ⟨_, _, _, a, b, by ring, by ring, rfl, ?_⟩
  have s1 := Real.sin_sq_add_cos_sq (Real.arccos (x it))
  have s2 := Real.sin_sq_add_cos_sq (2 * Real.pi * ip / nphi)
  have c1 : Real.sin (Real.arccos (x it)) ^ 2 = 1 - Real.cos (Real.arccos (x it)) ^ 2 := by linarith
  have c2 : Real.sin (2 * Real.pi * ip / nphi) ^ 2 = 1 - Real.cos (2 * Real.pi * ip / nphi) ^ 2 := by linarith
  simp only [mul_pow, c1, c2]
  ring

/-- non-vacuity of C07, C09, C31, C32: an 8 x 3 x 3 finite-difference grid and a Chebyshev one -/
example : ∃ (E : Env CR) (x : ℕ → ℝ) (A : ℕ → ℕ → ℕ → ℝ), E.Exact 8 2 1 3 3 x A ∧ Sizes E.useCheb 8 2 3 3 ∧ E.useCheb = false := by
  obtain ⟨E, x, A, _, _, h, hx⟩ := exists_env (nx := 8) (nl := 2) (nm := 1) (nlat := 3) (nphi := 3) true false false
    (by norm_num) (by norm_num) (by norm_num)
  exact ⟨E, x, A, hx, ⟨by simp [h], by norm_num, by norm_num, by unfold W; norm_num, by unfold W; norm_num, by norm_num⟩, h⟩

end real

/-! ## C08 compactification -/

/-- `physR` inverts `compR` and conversely -/
theorem physR_compR {L r : ℝ} (hL : 0 < L) (hr : 0 ≤ r) : physR L (compR L r) = r := by
  unfold physR compR
  have h1 : 0 < 1 + r / L := by positivity
  have h2 : 0 < L + r := by linarith
  field_simp
  ring_nf
  field_simp

theorem compR_lt {L r : ℝ} (hL : 0 < L) (hr : 0 ≤ r) : L - compR L r = L ^ 2 / (L + r) := by
  unfold compR
  have h2 : 0 < L + r := by linarith
  have h1 : 0 < 1 + r / L := by positivity
  field_simp
  ring

/-- C08: converting the launcher's compactified radius back gives the radius, for every `r≥0` before the cut-off
`|R-L|≤1e-16`; from the cut-off on (in particular at `R=L`) the result is the documented sentinel `1e12`. -/
theorem C08_round_trip {L r : ℝ} (hL : 0 < L) (hr : 0 ≤ r) :
    (1 / 10 ^ 16 < L ^ 2 / (L + r) → Grid.R_to_r (fin L) (Launcher.compactification (fin L) (fin r)) = fin r) ∧
    (L ^ 2 / (L + r) ≤ 1 / 10 ^ 16 → Grid.R_to_r (fin L) (Launcher.compactification (fin L) (fin r)) = fin (10 ^ 12)) ∧
    Grid.R_to_r (fin L) (Launcher.Rmax (fin L)) = fin (10 ^ 12) := by
  have h1 : 1 + r / L ≠ 0 := by positivity
  have hc : Launcher.compactification (fin L) (fin r) = fin (compR L r) := by
    unfold Launcher.compactification compR
    simp [hL.ne', h1]
  have hpos : 0 < L ^ 2 / (L + r) := by positivity
  have habs : |compR L r - L| = L ^ 2 / (L + r) := by
    rw [abs_sub_comm, compR_lt hL hr, abs_of_pos hpos]
  have hlt : (Scalar.lt (tenth 16) (fabs (fin (compR L r) - fin L)) = true) ↔ 1 / 10 ^ 16 < L ^ 2 / (L + r) := by
    rw [fin_tenth, fin_sub, fin_fabs, fin_lt, habs]
  refine ⟨fun h => ?_, fun h => ?_, ?_⟩
  · rw [hc]
    unfold Grid.R_to_r
    rw [if_pos (hlt.mpr h)]
    have h2 : 1 - compR L r / L ≠ 0 := by
      have : L - compR L r ≠ 0 := by rw [compR_lt hL hr]; exact hpos.ne'
      intro h0
      apply this
      field_simp at h0
      linarith
    rw [fin_div _ _ hL.ne', fin_ofNat_one, fin_sub, fin_div _ _ h2, fin_inj]
    exact physR_compR hL hr
  · rw [hc]
    unfold Grid.R_to_r
    rw [if_neg (by rw [hlt]; linarith)]
    simp
  · unfold Grid.R_to_r Launcher.Rmax
    rw [if_neg (by simp)]
    simp

/-- C08: with the launcher's `Rmin`,`Rmax`, the inner end of the finite-difference grid (index 0; index `nx-1` on the
Chebyshev grid) converts exactly to the horizon radius `M+sqrt(M²-a²)`, the outer end to the sentinel. -/
theorem C08_ends {E : Env CR} {nx : ℕ} (h2 : 2 ≤ nx) (hW : nx < W) {L M a : ℝ} (hL : 0 < L) (hM : 0 < M) (ha : |a| ≤ M)
    (hcut : 1 / 10 ^ 16 < L ^ 2 / (L + (M + Real.sqrt (M ^ 2 - a ^ 2)))) :
    ∃ lo : ℝ, Launcher.Rmin (fin L) (fin M) (fin a) = fin lo ∧ 0 < lo ∧ lo < L ∧
      Grid.R_to_r (fin L) ((Grid.radialOf E (fin lo) (Launcher.Rmax (fin L)) nx).ptV (if E.useCheb then nx - 1 else 0))
        = fin (M + Real.sqrt (M ^ 2 - a ^ 2)) ∧
      Grid.R_to_r (fin L) ((Grid.radialOf E (fin lo) (Launcher.Rmax (fin L)) nx).ptV (if E.useCheb then 0 else nx - 1))
        = fin (10 ^ 12) := by
  have hsq : (M - a) * (M + a) = M ^ 2 - a ^ 2 := by ring
  have h0 : 0 ≤ M ^ 2 - a ^ 2 := by
    have := abs_le.mp ha
    nlinarith
  set rp := M + Real.sqrt (M ^ 2 - a ^ 2) with hrp
  have hrp0 : 0 < rp := by positivity
  have hpos : 0 < L ^ 2 / (L + rp) := by positivity
  have hh : Launcher.horizon (fin M) (fin a) = fin rp := by
    unfold Launcher.horizon
    rw [fin_sub, fin_add, fin_mul, hsq, fin_rt _ h0, fin_add]
  have h1 : 1 + rp / L ≠ 0 := by positivity
  have hc : Launcher.Rmin (fin L) (fin M) (fin a) = fin (compR L rp) := by
    unfold Launcher.Rmin
    rw [hh]
    unfold Launcher.compactification compR
    simp [hL.ne', h1]
  have hn1 : ((nx : ℝ) - 1) ≠ 0 := by
    have : (2 : ℝ) ≤ nx := by exact_mod_cast h2
    linarith
  have hcast : ((nx - 1 : ℕ) : ℝ) = (nx : ℝ) - 1 := by push_cast [show 1 ≤ nx by omega]; ring
  have hlo : radPt E.useCheb nx (compR L rp) L (if E.useCheb then nx - 1 else 0) = compR L rp := by
    unfold radPt
    cases E.useCheb
    · simp
    · simp only [if_true]
      unfold chebPt
      rw [hcast, mul_div_assoc, div_self hn1]
      simp
      ring
  have hup : radPt E.useCheb nx (compR L rp) L (if E.useCheb then 0 else nx - 1) = L := by
    unfold radPt
    cases E.useCheb
    · simp only [if_false, Bool.false_eq_true]
      rw [hcast, mul_div_cancel₀ _ hn1]
      ring
    · simp only [if_true]
      unfold chebPt
      simp
      ring
  refine ⟨compR L rp, hc, ?_, ?_, ?_, ?_⟩
  · unfold compR; positivity
  · have := compR_lt hL hrp0.le
    linarith
  · unfold Launcher.Rmax
    rw [radialOf_pt h2 hW _ _ (by split <;> omega), hlo]
    have := (C08_round_trip hL hrp0.le).1 hcut
    unfold Launcher.Rmin at hc
    rw [hh] at hc
    rw [hc] at this
    exact this
  · unfold Launcher.Rmax
    rw [radialOf_pt h2 hW _ _ (by split <;> omega), hup]
    exact (C08_round_trip hL hrp0.le).2.2

/-- non-vacuity of C08: L=100, M=1/2, a=3/10 (horizon radius 9/10) -/
example : (0:ℝ) < 100 ∧ |(3/10:ℝ)| ≤ 1/2 ∧
    (1:ℝ) / 10 ^ 16 < 100 ^ 2 / (100 + (1/2 + Real.sqrt ((1/2) ^ 2 - (3/10) ^ 2))) := by
  have : Real.sqrt ((1/2:ℝ) ^ 2 - (3/10) ^ 2) = 2/5 := by
    rw [show ((1/2:ℝ) ^ 2 - (3/10) ^ 2) = (2/5) ^ 2 by norm_num]
    exact Real.sqrt_sq (by norm_num)
  rw [this]
  refine ⟨by norm_num, by rw [abs_of_pos (by norm_num)]; norm_num, by norm_num⟩

/-! ## C09 Jacobians -/

theorem compR_deriv {L r : ℝ} (hL : 0 < L) (hr : 0 ≤ r) :
    HasDerivAt (compR L) ((1 - compR L r / L) ^ 2) r := by
  have h1 : 1 + r / L ≠ 0 := by positivity
  have h := (hasDerivAt_id r).div (((hasDerivAt_id r).div_const L).const_add 1) h1
  refine h.congr_deriv ?_
  unfold compR
  simp only [id]
  have : L + r ≠ 0 := by positivity
  field_simp
  ring

theorem compR_deriv2 {L r : ℝ} (hL : 0 < L) (hr : 0 < r) :
    HasDerivAt (deriv (compR L)) (-2 / L * (1 - compR L r / L) ^ 3) r := by
  have h0 : HasDerivAt (fun s => (1 - compR L s / L) ^ 2) (-2 / L * (1 - compR L r / L) ^ 3) r := by
    have h := ((((compR_deriv hL hr.le).div_const L).const_sub 1).pow 2)
    refine h.congr_deriv ?_
    have hL' := hL.ne'
    simp only [Nat.cast_ofNat, Nat.add_one_sub_one, pow_one]
    rw [div_eq_mul_inv, div_eq_mul_inv]
    ring
  refine h0.congr_of_eventuallyEq ?_
  filter_upwards [lt_mem_nhds hr] with s hs
  exact (compR_deriv hL hs.le).deriv

theorem physR_nonneg {L R : ℝ} (hL : 0 < L) (h0 : 0 ≤ R) (h1 : R < L) : 0 ≤ physR L R := by
  unfold physR
  have : 0 < 1 - R / L := by
    rw [sub_pos, div_lt_one hL]; exact h1
  positivity

theorem compR_physR {L R : ℝ} (hL : 0 < L) (h1 : R < L) : compR L (physR L R) = R := by
  unfold physR compR
  have h2 : L - R ≠ 0 := by linarith
  have h3 : 1 - R / L ≠ 0 := by
    intro h; apply h2; field_simp at h; linarith
  have h4 : 1 + R / (1 - R / L) / L ≠ 0 := by
    have : 1 + R / (1 - R / L) / L = 1 / (1 - R / L) := by
      have : R / (1 - R / L) / L = (R / L) / (1 - R / L) := by rw [div_right_comm]
      rw [this, eq_div_iff h3, add_mul, div_mul_cancel₀ _ h3]; ring
    rw [this]
    exact one_div_ne_zero h3
  have h5 : 1 + R / (1 - R / L) / L = 1 / (1 - R / L) := by
    have hL' := hL.ne'
    have : R / (1 - R / L) / L = (R / L) / (1 - R / L) := by rw [div_right_comm]
    rw [this, eq_div_iff h3, add_mul, div_mul_cancel₀ _ h3]; ring
  rw [h5]
  field_simp

section jac
variable {E : Env CR} {nx nl nm nlat nphi : ℕ}

/-- C09: the stored factors are `dR/dr` and `d²R/dr²` of `R(r)=r/(1+r/L)` at the physical radius of each point, and vanish at
`R=L` (infinity). -/
theorem C09_jacobians (hE : E.Sized nx nl nm nlat nphi) (hz : Sizes E.useCheb nx nl nlat nphi) {L lo up : ℝ} (hL : 0 < L) :
    ∃ g, Grid.ctor E (fin L) (fin lo) (fin up) nx nl nm nlat nphi = .ok g ∧ ∀ ix, ix < nx →
      ∃ J1 J2 : ℝ, rd g.dR ix = .ok (fin J1) ∧ rd g.d2R ix = .ok (fin J2) ∧
        (∀ R, R = radPt E.useCheb nx lo up ix → (0 < R → R < L →
          HasDerivAt (compR L) J1 (physR L R) ∧ HasDerivAt (deriv (compR L)) J2 (physR L R)) ∧
          (R = L → J1 = 0 ∧ J2 = 0)) := by
  obtain ⟨g, e, hw, hd, hcl, hr, _⟩ := Grid.ctor_wf hE hz (fin L) (fin lo) (fin up)
  refine ⟨g, e, fun ix hx => ?_⟩
  have hx' : ix < g.d.nx := by rw [hd]; exact hx
  have hp : g.radial.ptV ix = fin (radPt E.useCheb nx lo up ix) := by
    rw [hr]; exact radialOf_pt hz.two.1 hz.two.2 lo up hx
  set R := radPt E.useCheb nx lo up ix with hRdef
  have e1 : g.dRV ix = fin ((1 - R / L) ^ 2) := by
    unfold Grid.dRV; rw [hp, hcl]; simp [hL.ne']
  have e2 : g.d2RV ix = fin (-2 / L * (1 - R / L) ^ 3) := by
    unfold Grid.d2RV; rw [hp, hcl]; simp [hL.ne']
  refine ⟨_, _, by rw [hw.dR, rd_tab hx', e1], by rw [hw.d2R, rd_tab hx', e2], ?_⟩
  rintro R' rfl
  refine ⟨fun h0 h1 => ⟨?_, ?_⟩, ?_⟩
  · have := compR_deriv hL (physR_nonneg hL h0.le h1)
    rwa [compR_physR hL h1] at this
  · have hpos : 0 < physR L R := by
      unfold physR
      have : 0 < 1 - R / L := by rw [sub_pos, div_lt_one hL]; exact h1
      positivity
    have := compR_deriv2 hL hpos
    rwa [compR_physR hL h1] at this
  · intro h
    rw [h, div_self hL.ne']
    simp

end jac

end SFK
