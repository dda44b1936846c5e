import Verif.Lemmas.Twin
import Verif.Spec.Units
import Verif.Props.Kerr
/-
The set-ups of the same system in two units of length: coefficients, radial operators, right-hand side.
-/
namespace SFK
open Scalar CR Kerr

/-! ## Comparisons with the absolute threshold -/

theorem Clear.lt_iff {s d : ℝ} (hs : 0 < s) (h : Clear s d) : |s * d| < 1 / 10 ^ 16 ↔ |d| < 1 / 10 ^ 16 := by
  rw [abs_mul, abs_of_pos hs]
  rcases h with rfl | ⟨h1, h2⟩
  · simp
  · exact ⟨fun h => absurd h2 (not_lt.mpr h.le), fun h => absurd h1 (not_lt.mpr h.le)⟩

theorem Clear.gt_iff {s d : ℝ} (hs : 0 < s) (h : Clear s d) : 1 / 10 ^ 16 < |s * d| ↔ 1 / 10 ^ 16 < |d| := by
  rw [abs_mul, abs_of_pos hs]
  rcases h with rfl | ⟨h1, h2⟩
  · simp
  · exact ⟨fun _ => h1, fun _ => h2⟩

/-! ## Coefficients -/

theorem kerrRp_scale {s M a : ℝ} (hs : 0 < s) (h1 : Clear s (M - |a|)) (h2 : Clear s a) :
    kerrRp (fin (s * M)) (fin (s * a)) = fin s * kerrRp (fin M) (fin a) := by
  have e1 : abs (s * M - |s * a|) = |s * (M - |a|)| := by rw [abs_mul s a, abs_of_pos hs]; congr 1; ring
  unfold kerrRp
  simp only [fin_fabs, fin_sub, fin_tenth, fin_lt, e1, h1.lt_iff hs, h2.lt_iff hs]
  split_ifs
  · rfl
  · simp only [fin_ofNat', fin_mul, fin_inj]; ring
  · simp only [fin_add, fin_mul]
    have e2 : (s * M - s * a) * (s * M + s * a) = s ^ 2 * ((M - a) * (M + a)) := by ring
    rw [e2]
    by_cases hx : (M - a) * (M + a) < 0
    · have hy : s ^ 2 * ((M - a) * (M + a)) < 0 := mul_neg_of_pos_of_neg (by positivity) hx
      have r1 : (rt (fin ((M - a) * (M + a))) : CR) = bad := if_pos hx
      have r2 : (rt (fin (s ^ 2 * ((M - a) * (M + a)))) : CR) = bad := if_pos hy
      rw [r1, r2]
      simp
    · have hx' := not_lt.mp hx
      rw [fin_rt _ hx', fin_rt _ (by positivity), Real.sqrt_mul (by positivity), Real.sqrt_sq hs.le]
      simp only [fin_add, fin_mul, fin_inj]
      ring

theorem cr_div_scale {x y : CR} {s t : ℝ} (ht : t ≠ 0) : (fin s * x) / (fin t * y) = fin (s / t) * (x / y) := by
  cases x <;> cases y <;> try rfl
  rename_i x y
  by_cases hy : y = 0
  · subst hy; simp
  · simp only [fin_mul]
    rw [fin_div _ _ (mul_ne_zero ht hy), fin_div _ _ hy, fin_mul, fin_inj]
    field_simp

theorem kerrRm_scale {s M a : ℝ} (hs : 0 < s) (h1 : Clear s (M - |a|)) (h2 : Clear s a) :
    kerrRm (fin (s * M)) (fin (s * a)) = fin s * kerrRm (fin M) (fin a) := by
  have e1 : abs (s * M - |s * a|) = |s * (M - |a|)| := by rw [abs_mul s a, abs_of_pos hs]; congr 1; ring
  unfold kerrRm
  rw [kerrRp_scale hs h1 h2]
  simp only [fin_fabs, fin_sub, fin_tenth, fin_lt, e1, h1.lt_iff hs]
  split_ifs
  · rfl
  · have := cr_div_scale (x := fin (a ^ 2)) (y := kerrRp (fin M) (fin a)) (s := s ^ 2) (t := s) hs.ne'
    simp only [fin_mul, fin_pown] at this ⊢
    rw [mul_pow, this]
    congr 2
    field_simp

theorem R_to_r_scale {s L R : ℝ} (hs : 0 < s) (h : 1 / 10 ^ 16 < |R - L|) (h' : 1 / 10 ^ 16 < s * |R - L|) :
    Grid.R_to_r (fin (s * L)) (fin (s * R)) = fin s * Grid.R_to_r (fin L) (fin R) := by
  have e1 : |s * R - s * L| = s * |R - L| := by rw [← mul_sub, abs_mul, abs_of_pos hs]
  have e2 : ((fin (s * R) : CR) / fin (s * L)) = fin R / fin L := by
    have := cr_div_scale (x := fin R) (y := fin L) (s := s) (t := s) hs.ne'
    rw [fin_mul, fin_mul, div_self hs.ne'] at this
    rw [this]
    cases (fin R / fin L : CR) <;> simp
  unfold Grid.R_to_r
  simp only [fin_fabs, fin_sub, fin_tenth, fin_lt, e1, h, h', if_true, e2]
  have := cr_div_scale (x := fin R) (y := (1 - fin R / fin L : CR)) (s := s) (t := 1) one_ne_zero
  rw [fin_mul, div_one] at this
  rw [← this]
  congr 1
  cases (1 - fin R / fin L : CR) <;> simp

theorem invR_scale {s L R : ℝ} (hs : 0 < s) (h : Clear s (R - L)) :
    invR (fin (s * L)) (fin (s * L)) (fin (s * R)) = fin s⁻¹ * invR (fin L) (fin L) (fin R) := by
  have e1 : |s * R - s * L| = |s * (R - L)| := by rw [mul_sub]
  unfold invR
  simp only [fin_fabs, fin_sub, fin_tenth, fin_lt, e1, h.lt_iff hs]
  split_ifs with hc
  · simp
  · rcases h with h0 | ⟨h1, h2⟩
    · rw [h0, abs_zero] at hc
      exact absurd (by positivity) hc
    · rw [R_to_r_scale hs h1 h2]
      have := cr_div_scale (x := (1 : CR)) (y := Grid.R_to_r (fin L) (fin R)) (s := 1) (t := s) hs.ne'
      rw [one_div] at this
      rw [← this]
      simp

/-- The coefficients in the two units.  Dimension `0`, `1/length` or `1/length²` of each. -/
structure CoefScale (s : ℝ) (c d : Coef CR) : Prop where
  pre : d.pre = c.pre
  p_p : d.p_p = fin s⁻¹ * c.p_p
  p_dr_f : d.p_dr_f = fin s⁻¹ * c.p_dr_f
  p_dr_p : d.p_dr_p = c.p_dr_p
  p_dr_dr_f : d.p_dr_dr_f = c.p_dr_dr_f
  p_dphi_dr_f : d.p_dphi_dr_f = fin s⁻¹ * c.p_dphi_dr_f
  p_lap_f : d.p_lap_f = fin (s⁻¹ ^ 2) * c.p_lap_f
  p_p_p : d.p_p_p = c.p_p_p
  p_p_dr_f : d.p_p_dr_f = c.p_p_dr_f
  p_dr_f_dr_f : d.p_dr_f_dr_f = c.p_dr_f_dr_f
  p_dr_f_dphi_f : d.p_dr_f_dphi_f = fin s⁻¹ * c.p_dr_f_dphi_f
  p_sphereX_f : d.p_sphereX_f = fin (s⁻¹ ^ 2) * c.p_sphereX_f
  rho_vv : d.rho_vv = c.rho_vv
  rho_vr : d.rho_vr = c.rho_vr
  rho_rr : d.rho_rr = c.rho_rr
  rho_rphi : d.rho_rphi = fin s⁻¹ * c.rho_rphi
  rho_sphereX : d.rho_sphereX = fin (s⁻¹ ^ 2) * c.rho_sphereX

theorem CoefScale.bad {s : ℝ} {M a M' a' th th' : CR} : CoefScale s (coefOf M a CR.bad th) (coefOf M' a' CR.bad th') := by
  constructor <;> simp [coefOf]

theorem cr_mul_one (x : CR) : fin 1 * x = x := by cases x <;> simp

theorem coefOf_scale {s M a θ : ℝ} (hs : 0 < s) (h1 : Clear s (M - |a|)) (h2 : Clear s a) (u : CR) :
    CoefScale s (coefOf (fin M) (fin a) u (fin θ)) (coefOf (fin (s * M)) (fin (s * a)) (fin s⁻¹ * u) (fin θ)) := by
  cases u with
  | bad => exact CoefScale.bad
  | fin u =>
    have hs' := hs.ne'
    obtain ⟨v, hv⟩ : ∃ v, v = s⁻¹ * u := ⟨_, rfl⟩
    have e1 : s * M * v = M * u := by rw [hv]; field_simp
    have e2 : v ^ 2 * (s * a) ^ 2 = u ^ 2 * a ^ 2 := by rw [hv]; field_simp
    have hrp : kerrRp (fin (s * M)) (fin (s * a)) * fin v = kerrRp (fin M) (fin a) * fin u := by
      rw [kerrRp_scale hs h1 h2]
      cases kerrRp (fin M) (fin a) with
      | bad => rfl
      | fin r => simp only [fin_mul, fin_inj]; rw [hv]; field_simp
    have hrm : kerrRm (fin (s * M)) (fin (s * a)) * fin v = kerrRm (fin M) (fin a) * fin u := by
      rw [kerrRm_scale hs h1 h2]
      cases kerrRm (fin M) (fin a) with
      | bad => rfl
      | fin r => simp only [fin_mul, fin_inj]; rw [hv]; field_simp
    have hS : 0 < 1 + u ^ 2 * a ^ 2 * Real.cos θ ^ 2 := by positivity
    rw [fin_mul, ← hv]
    unfold coefOf
    dsimp only
    rw [hrp, hrm]
    generalize ((1 - kerrRp (fin M) (fin a) * fin u) * (1 - kerrRm (fin M) (fin a) * fin u) : CR) = D
    simp only [fin_ofNat_one, fin_ofNat', fin_pown, fin_cos, fin_mul, fin_add, fin_sub, e2]
    obtain ⟨S, hSe⟩ : ∃ S, S = 1 + u ^ 2 * a ^ 2 * Real.cos θ ^ 2 := ⟨_, rfl⟩
    rw [← hSe] at hS ⊢
    have f1 : 2 * (s * M) * v = 2 * M * u := by linear_combination 2 * e1
    have f2 : 4 * (s * M) * v = 4 * M * u := by linear_combination 4 * e1
    have f3 : (s * a * v) ^ 2 = (a * u) ^ 2 := by rw [hv]; field_simp
    have f4 : 2 * (s * M) * v ^ 2 = s⁻¹ * (2 * M * u ^ 2) := by rw [hv]; field_simp
    have f5 : 2 * (v - s * M * v ^ 2) = s⁻¹ * (2 * (u - M * u ^ 2)) := by rw [hv]; field_simp
    have f6 : 2 * (s * a) * v ^ 2 = s⁻¹ * (2 * a * u ^ 2) := by rw [hv]; field_simp
    have f7 : v ^ 2 = s⁻¹ ^ 2 * u ^ 2 := by rw [hv]; ring
    have f8 : s * a * v ^ 2 = s⁻¹ * (a * u ^ 2) := by rw [hv]; field_simp
    have f9 : (1 : ℝ) + 2 * (s * M) * v = 1 + 2 * M * u := by rw [f1]
    have mulc : ∀ (c t : ℝ) (z : CR), (fin (c * t) / fin S) * z = fin c * (fin t / fin S * z) := fun c t z => by
      rw [fin_div _ _ hS.ne', fin_div _ _ hS.ne']
      cases z <;> simp only [fin_mul, fin_inj, mul_bad]
      ring
    constructor
    · simp only [f1]
    · simp only [f1, f4, mulc]
    · simp only [f1, f5, mulc]
    · simp only [f1, f2]
    · simp only [f1]
    · simp only [f1, f6, mulc]
    · simp only [f1, f7, mulc]
    · simp only [f1]
    · simp only [f1, f2]
    · simp only [f1]
    · simp only [f1, f6, mulc]
    · simp only [f1, f7, mulc]
    · simp only [f1]
    · simp only [f1]
    · simp only [f1, f2, f3]
    · simp only [f8]
      rw [fin_div _ _ hS.ne', fin_div _ _ hS.ne', fin_mul, fin_inj]
      ring
    · simp only [f7, fin_lit, fin_mul]
      rw [fin_div _ _ hS.ne', fin_div _ _ hS.ne', fin_mul, fin_inj]
      ring

/-! ## Radial operators -/

theorem radPt_scale (s : ℝ) (useCheb : Bool) (n : ℕ) (lo up : ℝ) (ix : ℕ) : radPt useCheb n (s * lo) (s * up) ix = s * radPt useCheb n lo up ix := by
  unfold radPt chebPt
  split_ifs <;> ring

/-- `T` and `c T'` act in the same way. -/
theorem ActsF.of_scale {n : ℕ} {T T' : List CR → List CR} {D : (ℕ → ℝ) → ℕ → ℝ} (h : ActsF n T D) {c : ℝ}
    (hl : ∀ v, (T' v).length = n) (hT : ∀ v i, i < n → gv (T' v) i = fin c * gv (T v) i) : ActsF n T' fun u i => c * D u i := by
  intro v u hv
  refine ⟨hl v, fun i hi => ?_⟩
  rw [hT v i hi, (h v u hv).2 i hi, fin_mul]

theorem cr_div_by {x y : CR} {t : ℝ} (ht : t ≠ 0) : x / (fin t * y) = fin t⁻¹ * (x / y) := by
  have := cr_div_scale (x := x) (y := y) (s := 1) ht
  rwa [cr_mul_one, one_div] at this

theorem FD.derV_scale {fd fd' : FD CR} {s : ℝ} (hs : s ≠ 0) (hn : fd'.n = fd.n) (hd : fd'.dx = fin s * fd.dx) (v : ℕ → CR) (i : ℕ) :
    fd'.derV v i = fin s⁻¹ * fd.derV v i := by
  unfold FD.derV
  rw [hn, hd]
  split_ifs <;> exact cr_div_by hs

theorem FD.der2V_scale {fd fd' : FD CR} {s : ℝ} (hs : s ≠ 0) (hn : fd'.n = fd.n) (hd : fd'.dx = fin s * fd.dx) (v : ℕ → CR) (i : ℕ) :
    fd'.der2V v i = fin (s⁻¹ ^ 2) * fd.der2V v i := by
  have h2 : (pown (fin s * fd.dx) 2 : CR) = fin (s ^ 2) * pown fd.dx 2 := by
    cases fd.dx with
    | bad => rfl
    | fin r => simp only [fin_mul, fin_pown, fin_inj]; ring
  unfold FD.der2V
  rw [hn, hd, h2, inv_pow]
  split_ifs <;> exact cr_div_by (pow_ne_zero 2 hs)

section two
variable {E : Env CR} {P₁ P₂ : ParamRec CR} {g₁ g₂ : Grid CR} {q : Phys} {x : ℕ → ℝ} {A : ℕ → ℕ → ℕ → ℝ} {e₁ e₂ : Eom CR} {s : ℝ}

theorem rad_scale (h₁ : Exact E P₁ g₁ q x A) (h₂ : Exact E P₂ g₂ (q.rescale s) x A) (hs : s ≠ 0) (hz : SameSizes P₁ P₂) :
    ∃ D1 D2, (ActsF g₁.d.nx g₁.radial.derP D1 ∧ LinF g₁.d.nx D1) ∧ (ActsF g₁.d.nx g₁.radial.der2P D2 ∧ LinF g₁.d.nx D2) ∧
      ActsF g₁.d.nx g₂.radial.derP (fun u i => s⁻¹ * D1 u i) ∧ ActsF g₁.d.nx g₂.radial.der2P (fun u i => s⁻¹ ^ 2 * D2 u i) := by
  obtain ⟨⟨D1, a1, b1⟩, ⟨D2, a2, b2⟩⟩ := h₁.linR_der
  have h2' : ∀ c : CR, fin s * c / 2 = fin s * (c / 2) := fun c => by
    cases c with
    | bad => rfl
    | fin r => rw [fin_ofNat', fin_mul, fin_div _ _ (by norm_num), fin_div _ _ (by norm_num), fin_mul, fin_inj]; ring
  have hsub : (fin (s * q.up) - fin (s * q.lo) : CR) = fin s * (fin q.up - fin q.lo) := by
    simp only [fin_sub, fin_mul, fin_inj]; ring
  have hr1 := h₁.rad
  have hr2 := h₂.rad
  rw [hz.1] at hr2
  have hnx := h₁.nx
  unfold Grid.radialOf at hr1 hr2
  refine ⟨D1, D2, ⟨a1, b1⟩, ⟨a2, b2⟩, ?_⟩
  cases hc : E.useCheb
  · rw [hc] at hr1 hr2
    simp only [Bool.false_eq_true, if_false] at hr1 hr2
    have hd : (FD.mk' P₁.nx (fin (q.rescale s).lo) (fin (q.rescale s).up) E.ndebug).dx =
        fin s * (FD.mk' P₁.nx (fin q.lo) (fin q.up) E.ndebug).dx := by
      unfold FD.mk'
      dsimp only [Phys.rescale]
      rw [hsub]
      have := cr_div_scale (x := (fin q.up - fin q.lo : CR)) (y := dbl (usub P₁.nx 1)) (s := s) (t := 1) one_ne_zero
      rwa [cr_mul_one, div_one] at this
    have hn : (FD.mk' P₁.nx (fin (q.rescale s).lo) (fin (q.rescale s).up) E.ndebug).n = (FD.mk' P₁.nx (fin q.lo) (fin q.up) E.ndebug).n := rfl
    constructor
    · refine a1.of_scale (fun v => by rw [hr2]; exact (tab_length _ _).trans hnx.symm) fun v i hi => ?_
      rw [hr1, hr2]
      show gv (tab P₁.nx _) i = fin s⁻¹ * gv (tab P₁.nx _) i
      rw [gv_tab (hnx ▸ hi), gv_tab (hnx ▸ hi)]
      exact FD.derV_scale hs hn hd _ _
    · refine a2.of_scale (fun v => by rw [hr2]; exact (tab_length _ _).trans hnx.symm) fun v i hi => ?_
      rw [hr1, hr2]
      show gv (tab P₁.nx _) i = fin (s⁻¹ ^ 2) * gv (tab P₁.nx _) i
      rw [gv_tab (hnx ▸ hi), gv_tab (hnx ▸ hi)]
      exact FD.der2V_scale hs hn hd _ _
  · rw [hc] at hr1 hr2
    simp only [if_true] at hr1 hr2
    have k1 : ActsF g₁.d.nx g₂.radial.derP (fun u i => s⁻¹ * D1 u i) := by
      refine a1.of_scale (fun v => by rw [hr2]; exact (tab_length _ _).trans hnx.symm) fun v i hi => ?_
      rw [hr1, hr2]
      show gv (tab P₁.nx _) i = fin s⁻¹ * gv (tab P₁.nx _) i
      rw [gv_tab (hnx ▸ hi), gv_tab (hnx ▸ hi)]
      have hj : ((fin (q.rescale s).up - fin (q.rescale s).lo) / 2 : CR) = fin s * ((fin q.up - fin q.lo) / 2) := by
        dsimp only [Phys.rescale]
        rw [hsub, h2']
      dsimp only
      rw [hj]
      exact cr_div_by hs
    refine ⟨k1, ?_⟩
    have hd1 : ∀ v, g₁.radial.der2P v = g₁.radial.derP (g₁.radial.derP v) := fun v => by rw [hr1]; rfl
    have hd2 : ∀ v, g₂.radial.der2P v = g₂.radial.derP (g₂.radial.derP v) := fun v => by rw [hr2]; rfl
    intro v u hv
    rw [hd2]
    have k2 := k1 _ _ (k1 v u hv)
    have k3 := (a2 v u hv)
    rw [hd1] at k3
    refine k2.congr fun i hi => ?_
    have k4 := (a1 _ _ (a1 v u hv)).unique k3 i hi
    have := b1 s⁻¹ 0 (D1 u) (D1 u) i hi
    simp only [zero_mul, add_zero] at this
    beta_reduce
    rw [this, k4]
    ring

theorem lift_lines' {d : Dims} (h : d.Ok) {T : List CR → List CR} {D : (ℕ → ℝ) → ℕ → ℝ} (a : ActsF d.nx T D) :
    ActsF d.total (fun v => d.ofLines fun it ip => T (d.lineOf v it ip)) fun u i => D (fun ix => u (d.pos3 ix (d.dT i) (d.dP i))) (d.dX i) := by
  intro v u hv
  refine ⟨by simp, fun i hi => ?_⟩
  obtain ⟨h1, h2⟩ := d.dec3 hi
  unfold Dims.ofLines Dims.mk3
  rw [gv_tab hi]
  refine (a _ (fun ix => u (d.pos3 ix (d.dT i) (d.dP i))) ⟨by simp, fun ix hx => ?_⟩).2 _ h1.1
  unfold Dims.lineOf
  rw [gv_tab hx, hv.at3 h ⟨hx, h1.2.1, h1.2.2⟩]

theorem pr_scale (h₁ : Exact E P₁ g₁ q x A) (h₂ : Exact E P₂ g₂ (q.rescale s) x A) (hs : s ≠ 0) (hz : SameSizes P₁ P₂) :
    ∃ pr p2r, (ActsF g₁.d.total g₁.prP pr ∧ LinF g₁.d.total pr) ∧ ActsF g₁.d.total g₁.p2rP p2r ∧
      ActsF g₁.d.total g₂.prP (fun u i => s⁻¹ * pr u i) ∧ ActsF g₁.d.total g₂.p2rP (fun u i => s⁻¹ ^ 2 * p2r u i) := by
  obtain ⟨D1, D2, ⟨a1, b1⟩, ⟨a2, b2⟩, c1, c2⟩ := rad_scale h₁ h₂ hs hz
  have hd : g₂.d = g₁.d := by rw [h₁.setup.dims, h₂.setup.dims, hz.1, hz.2.1, hz.2.2.1, hz.2.2.2.1, hz.2.2.2.2]
  have hw := h₁.setup.wf
  have pt1 : ∀ ix, ix < g₁.d.nx → g₁.radial.ptV ix = fin (radPt E.useCheb P₁.nx q.lo q.up ix) := fun ix hx => by
    rw [h₁.rad]; exact radialOf_pt h₁.setup.sizes.two.1 h₁.setup.sizes.two.2 q.lo q.up (h₁.nx ▸ hx)
  have pt2 : ∀ ix, ix < g₁.d.nx → g₂.radial.ptV ix = fin (s * radPt E.useCheb P₁.nx q.lo q.up ix) := fun ix hx => by
    rw [h₂.rad, ← radPt_scale, hz.1]
    exact radialOf_pt h₁.setup.sizes.two.1 h₁.setup.sizes.two.2 (s * q.lo) (s * q.up) (h₁.nx ▸ hx)
  have l1 : g₁.cl = fin q.L := by rw [h₁.setup.cl, h₁.phys.L]
  have l2 : g₂.cl = fin (s * q.L) := by rw [h₂.setup.cl, h₂.phys.L]; rfl
  have hL := h₁.L0
  have hsL : s * q.L ≠ 0 := mul_ne_zero hs hL
  obtain ⟨J, hJ⟩ : ∃ J : ℕ → ℝ, J = fun ix => 1 - radPt E.useCheb P₁.nx q.lo q.up ix / q.L := ⟨_, rfl⟩
  have hJ2 : ∀ ix, 1 - s * radPt E.useCheb P₁.nx q.lo q.up ix / (s * q.L) = J ix := fun ix => by
    rw [hJ, mul_div_mul_left _ _ hs]
  have j1 : ∀ ix, ix < g₁.d.nx → g₁.dRV ix = fin (J ix ^ 2) ∧ g₁.d2RV ix = fin (-2 / q.L * J ix ^ 3) := fun ix hx => by
    unfold Grid.dRV Grid.d2RV
    rw [pt1 ix hx, l1, hJ]
    constructor <;> simp [hL]
  have j2 : ∀ ix, ix < g₁.d.nx → g₂.dRV ix = fin (J ix ^ 2) ∧ g₂.d2RV ix = fin (s⁻¹ * (-2 / q.L * J ix ^ 3)) := fun ix hx => by
    unfold Grid.dRV Grid.d2RV
    rw [pt2 ix hx, l2]
    simp only [fin_ofNat_one, fin_ofNat', fin_neg, fin_div _ _ hsL, fin_sub, fin_pown, fin_mul, fin_inj, hJ2]
    refine ⟨trivial, ?_⟩
    field_simp
  have o1 : ActsF g₁.d.nx g₁.oprP fun u i => D1 u i * J i ^ 2 := fun v u hv => ⟨by simp [Grid.oprP], fun i hi => by
    unfold Grid.oprP; rw [gv_tab hi, (a1 v u hv).2 i hi, (j1 i hi).1, fin_mul]⟩
  have o2 : ActsF g₁.d.nx g₂.oprP fun u i => s⁻¹ * (D1 u i * J i ^ 2) := fun v u hv => ⟨by simp [Grid.oprP, hd], fun i hi => by
    unfold Grid.oprP; rw [hd, gv_tab hi, (c1 v u hv).2 i hi, (j2 i hi).1, fin_mul, mul_assoc]⟩
  have o3 : ActsF g₁.d.nx g₁.op2rP fun u i => -2 / q.L * J i ^ 3 * D1 u i + (J i ^ 2) ^ 2 * D2 u i := fun v u hv =>
    ⟨by simp [Grid.op2rP], fun i hi => by
      unfold Grid.op2rP
      rw [gv_tab hi, (a1 v u hv).2 i hi, (a2 v u hv).2 i hi, (j1 i hi).1, (j1 i hi).2, fin_pown, fin_mul, fin_mul, fin_add]⟩
  have o4 : ActsF g₁.d.nx g₂.op2rP fun u i => s⁻¹ ^ 2 * (-2 / q.L * J i ^ 3 * D1 u i + (J i ^ 2) ^ 2 * D2 u i) := fun v u hv =>
    ⟨by simp [Grid.op2rP, hd], fun i hi => by
      unfold Grid.op2rP
      rw [hd, gv_tab hi, (c1 v u hv).2 i hi, (c2 v u hv).2 i hi, (j2 i hi).1, (j2 i hi).2, fin_pown, fin_mul, fin_mul, fin_add, fin_inj]
      ring⟩
  refine ⟨_, _, ⟨lift_lines' hw.ok o1, ?_⟩, lift_lines' hw.ok o3, ?_, ?_⟩
  · intro a b u w i hi
    have := b1 a b (fun ix => u (g₁.d.pos3 ix (g₁.d.dT i) (g₁.d.dP i))) (fun ix => w (g₁.d.pos3 ix (g₁.d.dT i) (g₁.d.dP i))) _ (g₁.d.dec3 hi).1.1
    beta_reduce
    rw [this]
    ring
  · have := lift_lines' hw.ok o2
    unfold Grid.prP
    rw [hd]
    exact this
  · have := lift_lines' hw.ok o4
    unfold Grid.p2rP
    rw [hd]
    exact this

/-- the sphere object depends on the sizes only -/
theorem ctor_sphere {cl lo up : CR} {nx nl nm nlat nphi : ℕ} {g : Grid CR} (h : Grid.ctor E cl lo up nx nl nm nlat nphi = .ok g) :
    Sphere.mk' nl nm nlat nphi (E.nspatAlloc nl nm nlat nphi) (E.sht nl nm nlat nphi) E.ndebug = .ok g.sphere := by
  unfold Grid.ctor at h
  cases hs : Sphere.mk' nl nm nlat nphi (E.nspatAlloc nl nm nlat nphi) (E.sht nl nm nlat nphi) E.ndebug with
  | error z => rw [hs] at h; cases h
  | ok sp =>
    rw [hs, ok_bind] at h
    cases hr : Grid.mkRadial E nx lo up with
    | error z => rw [hr] at h; cases h
    | ok r =>
      rw [hr, ok_bind] at h
      unfold Grid.mk' at h
      congr 1
      cases h1 : Grid.mkPts3 (⟨nx, nl, nm, nlat, nphi, E.contig, E.ndebug⟩ : Dims) sp r with
      | error z => rw [h1] at h; cases h
      | ok a =>
        rw [h1, ok_bind] at h
        cases h2 : Grid.mkThPh (⟨nx, nl, nm, nlat, nphi, E.contig, E.ndebug⟩ : Dims) sp with
        | error z => rw [h2] at h; cases h
        | ok b =>
          rw [h2] at h
          cases h3 : Grid.mkRTh (⟨nx, nl, nm, nlat, nphi, E.contig, E.ndebug⟩ : Dims) sp r with
          | error z => rw [h3] at h; cases h
          | ok c =>
            rw [h3] at h
            cases h4 : Grid.mkRL (⟨nx, nl, nm, nlat, nphi, E.contig, E.ndebug⟩ : Dims) r with
            | error z => rw [h4] at h; cases h
            | ok d =>
              rw [h4] at h
              cases h5 : Grid.mkJac (⟨nx, nl, nm, nlat, nphi, E.contig, E.ndebug⟩ : Dims) cl r with
              | error z => rw [h5] at h; cases h
              | ok e =>
                rw [h5] at h
                cases h
                rfl

/-- two set-ups with the same sizes share all angular operators -/
theorem ang_same (h₁ : BuiltGrid E P₁ g₁) (h₂ : BuiltGrid E P₂ g₂) (hz : SameSizes P₁ P₂) : g₂.d = g₁.d ∧ g₂.pphiP = g₁.pphiP ∧
    g₂.plapP = g₁.plapP ∧ g₂.psphXP = g₁.psphXP ∧ g₂.filtP = g₁.filtP := by
  have hd : g₂.d = g₁.d := by rw [h₁.dims, h₂.dims, hz.1, hz.2.1, hz.2.2.1, hz.2.2.2.1, hz.2.2.2.2]
  have k1 := ctor_sphere h₁.grid
  have k2 := ctor_sphere h₂.grid
  rw [hz.2.1, hz.2.2.1, hz.2.2.2.1, hz.2.2.2.2, k1] at k2
  injection k2 with hsp
  refine ⟨hd, ?_, ?_, ?_, ?_⟩ <;> funext v
  · unfold Grid.pphiP; rw [hd, hsp]
  · unfold Grid.plapP; rw [hd, hsp]
  · unfold Grid.psphXP; rw [hd, hsp]
  · unfold Grid.filtP; rw [hd, hsp]

theorem coef_scale (h₁ : Exact E P₁ g₁ q x A) (h₂ : Exact E P₂ g₂ (q.rescale s) x A) (hs : 0 < s) (hz : SameSizes P₁ P₂)
    (hc : q.Clear s E.useCheb P₁.nx) (he₁ : Eom.Of g₁ P₁ e₁) (he₂ : Eom.Of g₂ P₂ e₂) {i : ℕ} (hi : i < g₁.d.total) :
    CoefScale s (gv e₁.coef i) (gv e₂.coef i) := by
  have hd := (ang_same h₁.setup.toBuiltGrid h₂.setup.toBuiltGrid hz).1
  obtain ⟨hr, h3⟩ := g₁.d.dec3 hi
  have hx : g₁.d.dX i < P₁.nx := h₁.nx ▸ hr.1
  have ht : g₁.d.dT i < P₁.nlat := h₁.nlat ▸ hr.2.1
  have hp : g₁.d.dP i < P₁.nphi := h₁.nphi ▸ hr.2.2
  have hx' : g₁.d.dX i < P₂.nx := by rw [hz.1]; exact hx
  have ht' : g₁.d.dT i < P₂.nlat := by rw [hz.2.2.2.1]; exact ht
  have hp' : g₁.d.dP i < P₂.nphi := by rw [hz.2.2.2.2]; exact hp
  have k1 := he₁.coef_at h₁.setup hx ht hp (h₁.setup.toBuiltGrid.coords h₁.phys h₁.env hx ht hp)
  have k2 := he₂.coef_at h₂.setup hx' ht' hp' (h₂.setup.toBuiltGrid.coords h₂.phys h₂.env hx' ht' hp')
  have at1 : ∀ c : List (Coef CR), g₁.d.at3 c (g₁.d.dX i) (g₁.d.dT i) (g₁.d.dP i) = gv c i := fun c => by
    unfold Dims.at3
    rw [h₁.setup.wf.ok.indx3 hr, h3]
  rw [hd, at1] at k2
  rw [at1] at k1
  rw [k1, k2, h₁.phys.M, h₁.phys.a, h₁.phys.L, h₂.phys.M, h₂.phys.a, h₂.phys.L, hz.1]
  dsimp only [Phys.rescale]
  rw [radPt_scale, invR_scale hs (hc.scri _ hx)]
  exact coefOf_scale hs hc.extreme hc.spin _

theorem vprime_scale (h₁ : Exact E P₁ g₁ q x A) (h₂ : Exact E P₂ g₂ (q.rescale s) x A) (he₁ : Eom.Of g₁ P₁ e₁)
    (he₂ : Eom.Of g₂ P₂ e₂) (f : ℝ) : e₂.kprime (fin f) = e₁.kprime (fin f) ∧ e₂.inverseK (fin f) = e₁.inverseK (fin f) ∧
      e₂.vprime (fin f) = fin (s⁻¹ ^ 2) * e₁.vprime (fin f) := by
  obtain ⟨a1, a2, a3, a4, a5, a6, a7, _⟩ := he₁.par h₁.setup h₁.phys
  obtain ⟨b1, b2, b3, b4, b5, b6, b7, _⟩ := he₂.par h₂.setup h₂.phys
  have hk : e₂.inverseK (fin f) = e₁.inverseK (fin f) := by
    unfold Eom.inverseK
    rw [a1, a2, a3, a4, b1, b2, b3, b4]
    rfl
  refine ⟨?_, hk, ?_⟩
  · unfold Eom.kprime
    rw [a1, a3, a4, b1, b3, b4]
    rfl
  · unfold Eom.vprime
    rw [hk, a5, a6, a7, b5, b6, b7]
    dsimp only [Phys.rescale]
    have h2 : ∀ r : ℝ, (fin r / 2 : CR) = fin (r / 2) := fun r => by rw [fin_ofNat', fin_div _ _ (by norm_num)]
    have h6 : ∀ r : ℝ, (fin r / 6 : CR) = fin (r / 6) := fun r => by rw [fin_ofNat', fin_div _ _ (by norm_num)]
    rw [h2, h2, h6, h6]
    cases e₁.inverseK (fin f) with
    | bad => simp
    | fin k =>
      simp only [fin_pown, fin_mul, fin_add, fin_inj]
      ring

theorem twin_scale (h₁ : Exact E P₁ g₁ q x A) (h₂ : Exact E P₂ g₂ (q.rescale s) x A) (hs : 0 < s) (hz : SameSizes P₁ P₂)
    (hc : q.Clear s E.useCheb P₁.nx) (he₁ : Eom.Of g₁ P₁ e₁) (he₂ : Eom.Of g₂ P₂ e₂) :
    Twin e₁ e₂ g₁ g₂ g₁.d.total (fun i => i) s := by
  obtain ⟨hd, n1, n2, n3, n4⟩ := ang_same h₁.setup.toBuiltGrid h₂.setup.toBuiltGrid hz
  obtain ⟨pr, p2r, ⟨a1, b1⟩, a2, c1, c2⟩ := pr_scale h₁ h₂ hs.ne' hz
  obtain ⟨_, _, ph, lap, fl, o⟩ := h₁.ops
  obtain ⟨X, x1, _, _⟩ := h₁.opX
  obtain ⟨_, _, _, _, _, _, _, t1⟩ := he₁.par h₁.setup h₁.phys
  obtain ⟨_, _, _, _, _, _, _, t2⟩ := he₂.par h₂.setup h₂.phys
  have one : ∀ {v w : List CR}, RelF g₁.d.total (fun i => i) 1 v w → w = v := by
    rintro v w ⟨y, k1, k2⟩
    exact (k2.congr (w := y) fun i _ => one_mul _).ext k1
  refine ⟨hs.ne', fun i hi => hi, rfl, by rw [hd], ⟨q.dt, t1, t2⟩, ?_, ?_⟩
  · rintro c v w ⟨y, k1, k2⟩
    refine ⟨fl y, o.fl.1 _ _ k1, ?_⟩
    rw [n4]
    refine (o.fl.1 _ _ k2).congr fun i hi => ?_
    have := o.fl.2.1 c 0 y y i hi
    simpa using this
  · rintro f₁ f₂ p₁ p₂ hf ⟨z, z1, z2⟩ hfin
    obtain rfl := one hf
    obtain ⟨y, y1, _⟩ := hf
    obtain ⟨r, hr⟩ := hfin.isF (n := g₁.d.total) (by simp)
    refine ⟨r, hr, by rw [Eom.rhs_length, hd], fun i hi => ?_⟩
    have kf := hr.2 i hi
    unfold Eom.rhs at kf ⊢
    have cs := coef_scale h₁ h₂ hs hz hc he₁ he₂ hi
    obtain ⟨v1, v2, v3⟩ := vprime_scale h₁ h₂ he₁ he₂ (y i)
    have q1 := (c1 _ _ z2).2 i hi
    have q2 : pr (fun i => s⁻¹ * z i) i = s⁻¹ * pr z i := by
      have := b1 s⁻¹ 0 z z i hi
      simpa using this
    beta_reduce at q1
    rw [q2] at q1
    rw [hd, gv_tab hi, n1, n2, n3, y1.2 i hi, z2.2 i hi, (c1 _ _ y1).2 i hi, q1, (c2 _ _ y1).2 i hi, (o.ph.1 _ _ y1).2 i hi,
      (c1 _ _ (o.ph.1 _ _ y1)).2 i hi, (x1 _ _ y1).2 i hi, (o.lap.1 _ _ y1).2 i hi]
    rw [gv_tab hi, y1.2 i hi, z1.2 i hi, (a1 _ _ y1).2 i hi, (a1 _ _ z1).2 i hi, (a2 _ _ y1).2 i hi, (o.ph.1 _ _ y1).2 i hi,
      (a1 _ _ (o.ph.1 _ _ y1)).2 i hi, (x1 _ _ y1).2 i hi, (o.lap.1 _ _ y1).2 i hi] at kf
    obtain ⟨cc, kp, ik, vp, f', p', r', vr', rr', ph', rph', X', lap', ⟨d1, d2, d3, d4, d5, d6, d7, d8, d9, d10, d11, d12⟩, ⟨m1, m2, m3⟩,
      ⟨w1, w2, w3, w4, w5, w6, w7, w8, w9⟩, kf⟩ := pk_fin kf
    rw [fin_inj] at w1 w2 w3 w4 w5 w6 w7 w8 w9
    beta_reduce
    rw [kf, ← w1, ← w2, ← w3, ← w4, ← w5, ← w6, ← w7, ← w8]
    unfold Eom.pk
    rw [cs.p_p, cs.p_dr_f, cs.p_dr_p, cs.p_dr_dr_f, cs.p_dphi_dr_f, cs.p_lap_f, cs.p_p_p, cs.p_p_dr_f, cs.p_dr_f_dr_f, cs.p_dr_f_dphi_f,
      cs.p_sphereX_f, cs.pre, d1, d2, d3, d4, d5, d6, d7, d8, d9, d10, d11, d12, v1, v2, v3, m1, m2, m3]
    simp only [fin_lit, fin_mul, fin_add, fin_sub, fin_pown, fin_inj]
    push_cast
    ring

end two

end SFK
