import Verif.Lemmas.FPGrid
/-
The equation of motion and the evolution in families of floating-point computations.
-/
namespace SFK
open Scalar CR Filter Asymptotics Topology

variable {ι : Type*} {l : Filter ι} {φ : ι → Format}

/-! ## Coefficients -/

/-- all components of a coefficient record -/
def NearCoef (l : Filter ι) (φ : ι → Format) (c : ∀ i, Coef (φ i).T) (C : Coef CR) : Prop :=
  (Near l φ (fun i => (c i).pre) C.pre ∧ Near l φ (fun i => (c i).p_p) C.p_p ∧ Near l φ (fun i => (c i).p_dr_f) C.p_dr_f ∧
  Near l φ (fun i => (c i).p_dr_p) C.p_dr_p ∧ Near l φ (fun i => (c i).p_dr_dr_f) C.p_dr_dr_f ∧
  Near l φ (fun i => (c i).p_dphi_dr_f) C.p_dphi_dr_f ∧ Near l φ (fun i => (c i).p_lap_f) C.p_lap_f ∧
  Near l φ (fun i => (c i).p_p_p) C.p_p_p ∧ Near l φ (fun i => (c i).p_p_dr_f) C.p_p_dr_f ∧
  Near l φ (fun i => (c i).p_dr_f_dr_f) C.p_dr_f_dr_f ∧ Near l φ (fun i => (c i).p_dr_f_dphi_f) C.p_dr_f_dphi_f ∧
  Near l φ (fun i => (c i).p_sphereX_f) C.p_sphereX_f) ∧
  Near l φ (fun i => (c i).rho_vv) C.rho_vv ∧ Near l φ (fun i => (c i).rho_vr) C.rho_vr ∧ Near l φ (fun i => (c i).rho_rr) C.rho_rr ∧
  Near l φ (fun i => (c i).rho_rphi) C.rho_rphi ∧ Near l φ (fun i => (c i).rho_sphereX) C.rho_sphereX

theorem tenth_eq (n : ℕ) : (tenth n : CR) = fin (1 / 10 ^ n) := by
  show (Scalar.lit _ : CR) = _
  rw [fin_lit, fin_inj]
  push_cast
  rfl

section coef
variable (hF : Fine l φ)
include hF

theorem Conv.tenth (n : ℕ) : Conv l φ (fun i => (tenth n : (φ i).T)) (1 / 10 ^ n) := by
  have := Near.tenth (l := l) (φ := φ) hF n _ (tenth_eq n)
  exact this

theorem kerrRp_near {m a : ∀ i, (φ i).T} {M A : ℝ} (hm : Conv l φ m M) (ha : Conv l φ a A) (hM : 0 ≤ M) (h1 : abs (M - |A|) ≠ 1 / 10 ^ 16)
    (h2 : |A| ≠ 1 / 10 ^ 16) : Near l φ (fun i => kerrRp (m i) (a i)) (kerrRp (fin M) (fin A)) := by
  have e : (kerrRp (fin M) (fin A) : CR) = if Scalar.lt (fin (abs (M - |A|))) (fin (1 / 10 ^ 16) : CR) then fin M
      else if Scalar.lt (fin |A|) (fin (1 / 10 ^ 16) : CR) then 2 * fin M else fin M + rt ((fin M - fin A) * (fin M + fin A)) := by
    unfold kerrRp
    rw [tenth_eq]
    rfl
  rw [e]
  unfold kerrRp
  refine Near.ite hF (hm.sub hF ha.fabs).fabs (Conv.tenth hF 16) h1 (fun _ => hm.near) (fun hb => ?_)
  refine Near.ite hF ha.fabs (Conv.tenth hF 16) h2 (fun _ => Near.mul hF (Near.nat hF 2) hm.near) (fun _ => ?_)
  refine Near.add hF hm.near (Near.rt hF (Near.mul hF (Near.sub hF hm.near ha.near) (Near.add hF hm.near ha.near)) ?_)
  rw [fin_sub, fin_add, fin_mul, ne_eq, fin_inj]
  intro h0
  have hsq : |A| = M := by
    rcases mul_eq_zero.mp h0 with h | h
    · rw [show A = M by linarith, abs_of_nonneg hM]
    · rw [show A = -M by linarith, abs_neg, abs_of_nonneg hM]
  rw [hsq, sub_self, abs_zero] at hb
  norm_num at hb

theorem kerrRm_near {m a : ∀ i, (φ i).T} {M A : ℝ} (hm : Conv l φ m M) (ha : Conv l φ a A) (hM : 0 ≤ M) (h1 : abs (M - |A|) ≠ 1 / 10 ^ 16)
    (h2 : |A| ≠ 1 / 10 ^ 16) : Near l φ (fun i => kerrRm (m i) (a i)) (kerrRm (fin M) (fin A)) := by
  have e : (kerrRm (fin M) (fin A) : CR) = if Scalar.lt (fin (abs (M - |A|))) (fin (1 / 10 ^ 16) : CR) then fin M
      else pown (fin A) 2 / kerrRp (fin M) (fin A) := by
    unfold kerrRm
    rw [tenth_eq]
    rfl
  rw [e]
  unfold kerrRm
  refine Near.ite hF (hm.sub hF ha.fabs).fabs (Conv.tenth hF 16) h1 (fun _ => hm.near) (fun hb => ?_)
  exact Near.div hF (Near.pown hF ha.near 2) (kerrRp_near hF hm ha hM h1 h2)

theorem invR_near {cl R : ∀ i, (φ i).T} {L x : ℝ} (hc : Conv l φ cl L) (hR : Conv l φ R x) (hx : |x - L| ≠ 1 / 10 ^ 16) :
    Near l φ (fun i => invR (cl i) (cl i) (R i)) (invR (fin L) (fin L) (fin x)) := by
  have e : (invR (fin L) (fin L) (fin x) : CR) = if Scalar.lt (fin |x - L|) (fin (1 / 10 ^ 16) : CR) then 0
      else 1 / (if Scalar.lt (fin (1 / 10 ^ 16)) (fin |x - L| : CR) then fin x / (1 - fin x / fin L) else lit (10 ^ 12)) := by
    unfold invR Grid.R_to_r
    rw [tenth_eq]
    rfl
  rw [e]
  unfold invR Grid.R_to_r
  refine Near.ite hF (hR.sub hF hc).fabs (Conv.tenth hF 16) hx (fun _ => Near.nat hF 0) (fun hb => ?_)
  refine Near.div hF (Near.nat hF 1) (Near.ite hF (Conv.tenth hF 16) (hR.sub hF hc).fabs hx.symm (fun _ => ?_) (fun _ => Near.lit hF _))
  exact Near.div hF hR.near (Near.sub hF (Near.nat hF 1) (Near.div hF hR.near hc.near))

theorem coefOf_near {m a u th : ∀ i, (φ i).T} {M A : ℝ} {U T : CR} (hm : Conv l φ m M) (ha : Conv l φ a A) (hM : 0 ≤ M)
    (h1 : abs (M - |A|) ≠ 1 / 10 ^ 16) (h2 : |A| ≠ 1 / 10 ^ 16) (hu : Near l φ u U) (ht : Near l φ th T) :
    NearCoef l φ (fun i => coefOf (m i) (a i) (u i) (th i)) (coefOf (fin M) (fin A) U T) := by
  have hrp := kerrRp_near hF hm ha hM h1 h2
  have hrm := kerrRm_near hF hm ha hM h1 h2
  have hm' := hm.near
  have ha' := ha.near
  unfold coefOf
  dsimp only
  refine ⟨⟨?_, ?_, ?_, ?_, ?_, ?_, ?_, ?_, ?_, ?_, ?_, ?_⟩, ?_, ?_, ?_, ?_, ?_⟩ <;> near hF

end coef

/-! ## The right-hand side -/

/-- a family of equation-of-motion objects -/
structure EoFam (l : Filter ι) (φ : ι → Format) (n : ℕ) (e : ∀ i, Eom (φ i).T) (e0 : Eom CR) : Prop where
  dt : NearF l φ (fun i => (e i).dt) e0.dt
  km1 : Near l φ (fun i => (e i).km1) e0.km1
  k0 : Near l φ (fun i => (e i).k0) e0.k0
  k1 : Near l φ (fun i => (e i).k1) e0.k1
  k2 : Near l φ (fun i => (e i).k2) e0.k2
  v2 : Near l φ (fun i => (e i).v2) e0.v2
  v3 : Near l φ (fun i => (e i).v3) e0.v3
  v4 : Near l φ (fun i => (e i).v4) e0.v4
  coef : ∀ k, k < n → NearCoef l φ (fun i => gv (e i).coef k) (gv e0.coef k)

section rhs
variable {n : ℕ} {e : ∀ i, Eom (φ i).T} {e0 : Eom CR}

theorem NearL.ax (hF : Fine l φ) {u k : ∀ i, List (φ i).T} {U Ks : List CR} {c : ∀ i, (φ i).T} {C : CR} (hu : NearL l φ n u U) (hk : NearL l φ n k Ks)
    (hc : Near l φ c C) : NearL l φ n (fun i => Eom.ax n (u i) (c i) (k i)) (Eom.ax n U C Ks) := by
  unfold Eom.ax
  exact NearL.tab fun j _ => (hu.gv hF j).add hF (hc.mul hF (hk.gv hF j))

namespace EoFam
variable (he : EoFam l φ n e e0) (hF : Fine l φ)
include he hF

theorem inverseK {f : ∀ i, (φ i).T} {F : CR} (hf : Near l φ f F) : Near l φ (fun i => (e i).inverseK (f i)) (e0.inverseK F) := by
  have := he.km1
  have := he.k0
  have := he.k1
  have := he.k2
  unfold Eom.inverseK
  near hF

theorem kprime {f : ∀ i, (φ i).T} {F : CR} (hf : Near l φ f F) : Near l φ (fun i => (e i).kprime (f i)) (e0.kprime F) := by
  have := he.km1
  have := he.k1
  have := he.k2
  unfold Eom.kprime
  near hF

theorem vprime {f : ∀ i, (φ i).T} {F : CR} (hf : Near l φ f F) : Near l φ (fun i => (e i).vprime (f i)) (e0.vprime F) := by
  have := he.v2
  have := he.v3
  have := he.v4
  have := he.inverseK hF hf
  unfold Eom.vprime
  near hF

theorem pk {c : ∀ i, Coef (φ i).T} {C : Coef CR} (hc : NearCoef l φ c C) {f p r vr rr ph rph X lap : ∀ i, (φ i).T}
    {f0 p0 r0 vr0 rr0 ph0 rph0 X0 lap0 : CR} (h1 : Near l φ f f0) (h2 : Near l φ p p0) (h3 : Near l φ r r0) (h4 : Near l φ vr vr0)
    (h5 : Near l φ rr rr0) (h6 : Near l φ ph ph0) (h7 : Near l φ rph rph0) (h8 : Near l φ X X0) (h9 : Near l φ lap lap0) :
    Near l φ (fun i => (e i).pk (c i) (f i) (p i) (r i) (vr i) (rr i) (ph i) (rph i) (X i) (lap i)) (e0.pk C f0 p0 r0 vr0 rr0 ph0 rph0 X0 lap0) := by
  obtain ⟨⟨c1, c2, c3, c4, c5, c6, c7, c8, c9, c10, c11, c12⟩, _⟩ := hc
  have k1 := he.kprime hF h1
  have k2 := he.inverseK hF h1
  have k3 := he.vprime hF h1
  unfold Eom.pk
  near hF

end EoFam
end rhs

section evo
variable {K : ℝ} {M : LibMats} {g : ∀ i, Grid (φ i).T} {g0 : Grid CR} {e : ∀ i, Eom (φ i).T} {e0 : Eom CR}

theorem rhs_near (hF : Fine l φ) (h : GrFam l φ K M g g0) (he : EoFam l φ g0.d.total e e0) {f p : ∀ i, List (φ i).T} {F P : List CR}
    (hf : NearFL l φ g0.d.total f F) (hp : NearFL l φ g0.d.total p P) :
    NearL l φ g0.d.total (fun i => (e i).rhs (g i) (f i) (p i)) (e0.rhs g0 F P) := by
  unfold Eom.rhs
  simp only [h.d]
  apply NearL.tab
  intro k hk
  exact he.pk hF (he.coef k hk) (hf.gv hF k).2 (hp.gv hF k).2 ((h.pr hF hf).gv hF k).2 ((h.pr hF hp).gv hF k).2 ((h.p2r hF hf).gv hF k).2
    ((h.pphi hF hf).gv hF k).2 ((h.pr hF (h.pphi hF hf)).gv hF k).2 ((h.psphX hF hf).gv hF k).2 ((h.plap hF hf).gv hF k).2

theorem step_near (hF : Fine l φ) (h : GrFam l φ K M g g0) (he : EoFam l φ g0.d.total e e0) {f p : ∀ i, List (φ i).T} {F P : List CR}
    (hf : NearFL l φ g0.d.total f F) (hp : NearFL l φ g0.d.total p P) (h1 : AllFin (e0.stepF g0 F P).1) (h2 : AllFin (e0.stepF g0 F P).2) :
    NearFL l φ g0.d.total (fun i => ((e i).stepF (g i) (f i) (p i)).1) (e0.stepF g0 F P).1 ∧
    NearFL l φ g0.d.total (fun i => ((e i).stepF (g i) (f i) (p i)).2) (e0.stepF g0 F P).2 := by
  obtain ⟨τ, hτ⟩ := he.dt.1
  obtain ⟨⟨_, _, r1⟩, ⟨a2, b2, r2⟩, ⟨a3, b3, r3⟩, a4, b4, r4⟩ := step_fin hτ hf.2.1 hp.2.1 h1 h2
  have hd := he.dt.2
  have hh : Near l φ (fun i => (lit (1/2) * (e i).dt : (φ i).T)) (lit (1/2) * e0.dt) := by near hF
  have h6 : Near l φ (fun i => ((e i).dt / 6 : (φ i).T)) (e0.dt / 6) := by near hF
  have h3 : Near l φ (fun i => ((e i).dt / 3 : (φ i).T)) (e0.dt / 3) := by near hF
  have s1 := rhs_near hF h he hf hp
  have A2 : NearFL l φ g0.d.total (fun i => ((e i).L2 (g i) (f i) (p i)).1) (e0.L2 g0 F P).1 := by
    refine NearL.strong ?_ a2
    unfold Eom.L2
    simp only [h.d]
    exact hf.nearL.ax hF hp.nearL hh
  have B2 : NearFL l φ g0.d.total (fun i => ((e i).L2 (g i) (f i) (p i)).2) (e0.L2 g0 F P).2 := by
    refine NearL.strong ?_ b2
    unfold Eom.L2
    simp only [h.d]
    exact hp.nearL.ax hF s1 hh
  have s2 := rhs_near hF h he A2 B2
  have A3 : NearFL l φ g0.d.total (fun i => ((e i).L3 (g i) (f i) (p i)).1) (e0.L3 g0 F P).1 := by
    refine NearL.strong ?_ a3
    unfold Eom.L3
    simp only [h.d]
    exact hf.nearL.ax hF B2.nearL hh
  have B3 : NearFL l φ g0.d.total (fun i => ((e i).L3 (g i) (f i) (p i)).2) (e0.L3 g0 F P).2 := by
    refine NearL.strong ?_ b3
    unfold Eom.L3
    simp only [h.d]
    exact hp.nearL.ax hF s2 hh
  have s3 := rhs_near hF h he A3 B3
  have A4 : NearFL l φ g0.d.total (fun i => ((e i).L4 (g i) (f i) (p i)).1) (e0.L4 g0 F P).1 := by
    refine NearL.strong ?_ a4
    unfold Eom.L4
    simp only [h.d]
    exact hf.nearL.ax hF B3.nearL hd
  have B4 : NearFL l φ g0.d.total (fun i => ((e i).L4 (g i) (f i) (p i)).2) (e0.L4 g0 F P).2 := by
    refine NearL.strong ?_ b4
    unfold Eom.L4
    simp only [h.d]
    exact hp.nearL.ax hF s3 hd
  have s4 := rhs_near hF h he A4 B4
  constructor
  · refine NearL.strong ?_ h1
    unfold Eom.stepF
    simp only [h.d]
    exact (((hf.nearL.ax hF hp.nearL h6).ax hF B2.nearL h3).ax hF B3.nearL h3).ax hF B4.nearL h6
  · refine NearL.strong ?_ h2
    unfold Eom.stepF
    simp only [h.d]
    exact (((hp.nearL.ax hF s1 h6).ax hF s2 h3).ax hF s3 h3).ax hF s4 h6

theorem evo_near (hF : Fine l φ) (h : GrFam l φ K M g g0) (he : EoFam l φ g0.d.total e e0) {f p : ∀ i, List (φ i).T} {F P : List CR}
    (hf : NearFL l φ g0.d.total f F) (hp : NearFL l φ g0.d.total p P) (N : ℕ)
    (h1 : ∀ j, j ≤ N → AllFin (evoP e0 g0 F P j).1 ∧ AllFin (evoP e0 g0 F P j).2) :
    NearFL l φ g0.d.total (fun i => (evoP (e i) (g i) (f i) (p i) N).1) (evoP e0 g0 F P N).1 ∧
    NearFL l φ g0.d.total (fun i => (evoP (e i) (g i) (f i) (p i) N).2) (evoP e0 g0 F P N).2 := by
  induction N with
  | zero => exact ⟨hf, hp⟩
  | succ N ih =>
    obtain ⟨i1, i2⟩ := ih fun j hj => h1 j (by omega)
    obtain ⟨f1, f2⟩ := h1 (N + 1) (le_refl _)
    exact step_near hF h he (h.pfilt hF i1) (h.pfilt hF i2) f1 f2

end evo
end SFK
