import Verif.Lemmas.Lagrangian
import Verif.Props.Converge
import Verif.Lemmas.RaiseX
/-
C112-C114: the conventions of the Lagrangian and of the field - an overall factor, the unit of the field, and, for a massless field, its zero - are not
seen by the evolution.
-/
namespace SFK
open Scalar CR Kerr

variable {E : Env CR} {P₁ P₂ P : ParamRec CR} {g : Grid CR} {q : Phys} {x : ℕ → ℝ} {A : ℕ → ℕ → ℕ → ℝ} {e₁ e₂ e : Eom CR} {s c : ℝ}

/-! ## C112 -/

/-- C112: multiplying all coefficients of the kinetic function and of the potential by one number `s ≠ 0` does not change the evolution: the same state after
any number of steps, finite or not. -/
theorem C112_overall_factor (hs : s ≠ 0) (h₁ : Exact E P₁ g q x A) (h₂ : Exact E P₂ g (q.times s) x A) (he₁ : Eom.Of g P₁ e₁) (he₂ : Eom.Of g P₂ e₂)
    (J₁ J₂ : ℕ → Junk (Cx CR)) {f₁ p₁ f₂ p₂ : Field CR} (hf₁ : f₁.Sized (P₁.nx * P₁.nlat * P₁.nphi)) (hp₁ : p₁.Sized (P₁.nx * P₁.nlat * P₁.nphi))
    (hf₂ : f₂.Sized (P₂.nx * P₂.nlat * P₂.nphi)) (hp₂ : p₂.Sized (P₂.nx * P₂.nlat * P₂.nphi)) (N : ℕ) (hF : f₂.n = f₁.n) (hQ : p₂.n = p₁.n) :
    ∃ a₁ a₂ F₁ F₂ Q₁ Q₂, evolve g J₁ e₁ f₁ p₁ N = .ok (a₁, F₁, Q₁) ∧ evolve g J₂ e₂ f₂ p₂ N = .ok (a₂, F₂, Q₂) ∧ F₂.n = F₁.n ∧ Q₂.n = Q₁.n := by
  obtain ⟨s1, F₁, Q₁, a1, _, _, _, a5, a6⟩ := evolve_eq h₁.setup he₁ J₁ hf₁ hp₁ N
  obtain ⟨s2, F₂, Q₂, b1, _, _, _, b5, b6⟩ := evolve_eq h₂.setup he₂ J₂ hf₂ hp₂ N
  refine ⟨_, _, F₁, F₂, Q₁, Q₂, a1, b1, ?_, ?_⟩
  · rw [a5, b5, hF, hQ, evoP_times hs h₁ h₂ he₁ he₂]
  · rw [a6, b6, hF, hQ, evoP_times hs h₁ h₂ he₁ he₂]

/-- C112: ... and multiplies the energy density by `s` at every point, for all fields. -/
theorem C112_density_factor (h₁ : Exact E P₁ g q x A) (h₂ : Exact E P₂ g (q.times s) x A) (he₁ : Eom.Of g P₁ e₁) (he₂ : Eom.Of g P₂ e₂)
    (J₁ J₂ : Junk (Cx CR)) {f p z₁ z₂ : List CR} (hf : f.length = P₁.nx * P₁.nlat * P₁.nphi) (hp : p.length = P₁.nx * P₁.nlat * P₁.nphi)
    (hz₁ : z₁.length = P₁.nx * P₁.nlat * P₁.nphi) (hz₂ : z₂.length = P₁.nx * P₁.nlat * P₁.nphi) :
    ∃ a₁ a₂ D₁ D₂, e₁.set_rho g J₁ f p z₁ = .ok (a₁, D₁) ∧ e₂.set_rho g J₂ f p z₂ = .ok (a₂, D₂) ∧ Scaled s D₁ D₂ := by
  have ht := h₁.setup.total
  refine ⟨_, _, _, _, Eom.set_rho_eq h₁.setup.wf (he₁.wf h₁.setup) J₁ (hf.trans ht.symm) (hp.trans ht.symm) (hz₁.trans ht.symm),
    Eom.set_rho_eq h₂.setup.wf (he₂.wf h₂.setup) J₂ (hf.trans ht.symm) (hp.trans ht.symm) (hz₂.trans ht.symm), by simp, fun i hi => ?_⟩
  rw [Eom.rhoP_length] at hi
  unfold Eom.rhoP
  rw [gv_tab hi, gv_tab hi, rhoVal_times h₁ h₂ he₁ he₂, same_coef h₁ h₂ ⟨rfl, rfl, rfl, rfl⟩ he₁ he₂]

/-! ## C113 -/

/-- The local functions of a field without the pole term, where they are finite. -/
theorem local_fin (h : Exact E P g q x A) (he : Eom.Of g P e) (hk : q.km1 = 0) {f kp ik vp : ℝ} (m1 : e.kprime (fin f) = fin kp)
    (m2 : e.inverseK (fin f) = fin ik) (m3 : e.vprime (fin f) = fin vp) :
    kp = q.k1 + q.k2 * f ∧ ik = 1 / (q.k0 + q.k1 * f + q.k2 / 2 * f ^ 2) ∧ vp = ik * (q.V2 * f + q.V3 / 2 * f ^ 2 + q.V4 / 6 * f ^ 3) := by
  have hne : f ≠ -1 := by
    rintro rfl
    rw [(C40_pole_even_without_km1 h.setup h.phys he).1] at m1
    cases m1
  have hf : f + 1 ≠ 0 := fun hh => hne (by linarith)
  obtain ⟨q1, q2, q3, q4, q5, q6, q7, _⟩ := he.par h.setup h.phys
  unfold Eom.vprime at m3
  rw [m2] at m3
  unfold Eom.kprime at m1
  unfold Eom.inverseK at m2
  rw [q5, q6, q7] at m3
  rw [q1, hk, q3, q4] at m1
  rw [q1, q2, q3, q4, hk] at m2
  simp only [fin_ofNat_one, fin_ofNat', fin_neg, fin_add, fin_pown, fin_div _ _ hf, fin_div _ _ (pow_ne_zero 2 hf), fin_mul,
    fin_div _ _ (two_ne_zero (α := ℝ)), fin_inj] at m1 m2
  simp only [fin_ofNat', fin_add, fin_pown, fin_mul, fin_div _ _ (two_ne_zero (α := ℝ)), fin_div _ _ (show (6:ℝ) ≠ 0 by norm_num), fin_inj] at m3
  refine ⟨by rw [← m1]; simp, ?_, m3.symm⟩
  obtain ⟨a, b, e1, e2, _, rfl⟩ := div_fin m2
  rw [fin_inj] at e1 e2
  rw [← e1, ← e2]
  simp

theorem pair_refield (hc : c ≠ 0) (hk : q.km1 = 0) (h₁ : Exact E P₁ g q x A) (h₂ : Exact E P₂ g (q.refield c) x A) (he₁ : Eom.Of g P₁ e₁)
    (he₂ : Eom.Of g P₂ e₂) : Pair e₁ e₂ g (RelF g.d.total (fun i => i) c) (RelF g.d.total (fun i => i) c) := by
  obtain ⟨_, _, _, _, _, _, _, d1⟩ := he₁.par h₁.setup h₁.phys
  obtain ⟨_, _, _, _, _, _, _, d2⟩ := he₂.par h₂.setup h₂.phys
  obtain ⟨pr, p2r, ph, lap, fl, o⟩ := h₁.ops
  obtain ⟨X, x1, _, x3⟩ := h₁.opX
  have ax : ∀ u w k k' (d : ℝ), RelF g.d.total (fun i => i) c u w → RelF g.d.total (fun i => i) c k k' →
      RelF g.d.total (fun i => i) c (Eom.ax g.d.total u (fin d) k) (Eom.ax g.d.total w (fin d) k') := fun u w k k' d a b =>
    a.ax (fun _ h => h) b (by ring)
  have fi : ∀ u w, RelF g.d.total (fun i => i) c u w → RelF g.d.total (fun i => i) c (g.filtP u) (g.filtP w) := by
    rintro u w ⟨y, a, b⟩
    exact ⟨fl y, o.fl.1 _ _ a, lin_smul o.fl.1 o.fl.2.1 b⟩
  refine ⟨⟨q.dt, d1, d2⟩, ax, ax, fi, fi, ?_, ?_⟩
  · rintro f₁ f₂ p₁ p₂ ⟨y, a1, a2⟩ ⟨z, b1, b2⟩ n1 n2
    obtain ⟨r₁, hr₁⟩ := n1.isF (n := g.d.total) (by simp)
    obtain ⟨r₂, hr₂⟩ := n2.isF (n := g.d.total) (by simp)
    refine ⟨r₁, hr₁, hr₂.congr fun i hi => ?_⟩
    have k1 := hr₁.2 i hi
    have k2 := hr₂.2 i hi
    unfold Eom.rhs at k1 k2
    rw [gv_tab hi] at k1 k2
    have e4 := lin_smul o.ph.1 o.ph.2.1 a2
    rw [a1.2 i hi, b1.2 i hi, (o.pr.1 _ _ a1).2 i hi, (o.pr.1 _ _ b1).2 i hi, (o.p2r.1 _ _ a1).2 i hi, (o.ph.1 _ _ a1).2 i hi,
      (o.pr.1 _ _ (o.ph.1 _ _ a1)).2 i hi, (x1 _ _ a1).2 i hi, (o.lap.1 _ _ a1).2 i hi] at k1
    rw [same_coef h₁ h₂ ⟨rfl, rfl, rfl, rfl⟩ he₁ he₂, a2.2 i hi, b2.2 i hi, (lin_smul o.pr.1 o.pr.2.1 a2).2 i hi, (lin_smul o.pr.1 o.pr.2.1 b2).2 i hi,
      (lin_smul o.p2r.1 o.p2r.2.1 a2).2 i hi, e4.2 i hi, (lin_smul o.pr.1 o.pr.2.1 e4).2 i hi, (x1 _ _ a2).2 i hi,
      (lin_smul o.lap.1 o.lap.2.1 a2).2 i hi, x3 _ _ i hi] at k2
    obtain ⟨cc, kp, ik, vp, f', p', r', vr', rr', ph', rph', X', lap', ⟨c1, c2, c3, c4, c5, c6, c7, c8, c9, c10, c11, c12⟩, ⟨m1, m2, m3⟩,
      ⟨v1, v2, v3, v4, v5, v6, v7, v8, v9⟩, y1⟩ := pk_fin k1
    obtain ⟨dd, kp', ik', vp', g', p'', r'', vr'', rr'', ph'', rph'', X'', lap'', ⟨w1, w2, w3, w4, w5, w6, w7, w8, w9, w10, w11, w12⟩, ⟨l1, l2, l3⟩,
      ⟨u1, u2, u3, u4, u5, u6, u7, u8, u9⟩, y2⟩ := pk_fin k2
    rw [c1] at w1; rw [c2] at w2; rw [c3] at w3; rw [c4] at w4; rw [c5] at w5; rw [c6] at w6; rw [c7] at w7; rw [c8] at w8
    rw [c9] at w9; rw [c10] at w10; rw [c11] at w11; rw [c12] at w12
    rw [fin_inj] at w1 w2 w3 w4 w5 w6 w7 w8 w9 w10 w11 w12 v1 v2 v3 v4 v5 v6 v7 v8 v9 u1 u2 u3 u4 u5 u6 u7 u8 u9
    obtain ⟨t1, t2, t3⟩ := local_fin h₁ he₁ hk m1 m2 m3
    obtain ⟨t1', t2', t3'⟩ := local_fin h₂ he₂ hk l1 l2 l3
    have e1 : kp' = kp / c := by
      rw [t1, t1', ]
      simp only [Phys.refield]
      field_simp
    have e2 : ik' = ik := by
      rw [t2, t2']
      simp only [Phys.refield]
      congr 1
      field_simp
    have e3 : vp' = c * vp := by
      rw [t3, t3', e2]
      simp only [Phys.refield]
      field_simp
    rw [y1, y2, ← w1, ← w2, ← w3, ← w4, ← w5, ← w6, ← w7, ← w8, ← w9, ← w10, ← w11, ← w12, ← u1, ← u2, ← u3, ← u4, ← u5, ← u6, ← u7, ← u8,
      ← v1, ← v2, ← v3, ← v4, ← v5, ← v6, ← v7, ← v8, e1, e2, e3]
    field_simp
  · rintro u w (⟨y, a, b⟩ | ⟨y, a, b⟩) <;> exact ⟨a.1, b.1⟩

/-- C113 (partial: the code violates it for fields that reach `-1` in one of the two units, see C113_pole_is_absolute): measuring the field in another unit -
all initial values multiplied by `c`, the coefficients of the Lagrangian converted - multiplies the whole evolution by `c`, for any number of steps, as long
as both runs stay finite. -/
theorem C113_unit_of_field_partial (hc : c ≠ 0) (hk : q.km1 = 0) (h₁ : Exact E P₁ g q x A) (h₂ : Exact E P₂ g (q.refield c) x A) (he₁ : Eom.Of g P₁ e₁)
    (he₂ : Eom.Of g P₂ e₂) (J₁ J₂ : ℕ → Junk (Cx CR)) {f₁ p₁ f₂ p₂ : Field CR} (hf₁ : f₁.Sized (P₁.nx * P₁.nlat * P₁.nphi))
    (hp₁ : p₁.Sized (P₁.nx * P₁.nlat * P₁.nphi)) (hf₂ : f₂.Sized (P₂.nx * P₂.nlat * P₂.nphi)) (hp₂ : p₂.Sized (P₂.nx * P₂.nlat * P₂.nphi)) (N : ℕ)
    (hF : Scaled c f₁.n f₂.n) (hQ : Scaled c p₁.n p₂.n) (hfin₁ : StaysFinite g e₁ f₁ p₁ N) (hfin₂ : StaysFinite g e₂ f₂ p₂ N) :
    ∃ a₁ a₂ F₁ F₂ Q₁ Q₂, evolve g J₁ e₁ f₁ p₁ N = .ok (a₁, F₁, Q₁) ∧ evolve g J₂ e₂ f₂ p₂ N = .ok (a₂, F₂, Q₂) ∧
      Scaled c F₁.n F₂.n ∧ Scaled c Q₁.n Q₂.n := by
  have ht := h₁.setup.total
  have hev₁ := fun j hj => hfin₁.evoP h₁.setup he₁ hf₁ hp₁ j hj
  have hev₂ := fun j hj => hfin₂.evoP h₂.setup he₂ hf₂ hp₂ j hj
  obtain ⟨s1, F₁, Q₁, a1, _, _, _, a5, a6⟩ := evolve_eq h₁.setup he₁ J₁ hf₁ hp₁ N
  obtain ⟨s2, F₂, Q₂, b1, _, _, _, b5, b6⟩ := evolve_eq h₂.setup he₂ J₂ hf₂ hp₂ N
  obtain ⟨k1, k2⟩ := (pair_refield hc hk h₁ h₂ he₁ he₂).evo (hF.rel (hf₁.1.trans ht.symm) (hev₁ 0 (Nat.zero_le _)).1)
    (hQ.rel (hp₁.1.trans ht.symm) (hev₁ 0 (Nat.zero_le _)).2) N hev₁ hev₂
  exact ⟨_, _, F₁, F₂, Q₁, Q₂, a1, b1, by rw [a5, b5]; exact k1.scaled, by rw [a6, b6]; exact k2.scaled⟩


theorem kin_refield (hc : c ≠ 0) (hk : q.km1 = 0) (f : ℝ) : (q.refield c).kin (c * f) = q.kin f := by
  simp only [Phys.kin, Kerr.kin, Phys.refield, hk, zero_div]
  field_simp

theorem pot_refield (hc : c ≠ 0) (f : ℝ) : (q.refield c).pot (c * f) = c ^ 2 * q.pot f := by
  simp only [Phys.pot, Kerr.pot, Phys.refield]
  field_simp

/-- C113, energy density (partial: away from the value `-1` in either unit): it is multiplied by `c²`. -/
theorem C113_density_partial (hc : c ≠ 0) (hk : q.km1 = 0) (h₁ : Exact E P₁ g q x A) (h₂ : Exact E P₂ g (q.refield c) x A) (ho : q.Ok) (h0 : 0 < q.lo)
    (h1 : q.lo < q.up) (h2 : q.up ≤ q.L) (he₁ : Eom.Of g P₁ e₁) (he₂ : Eom.Of g P₂ e₂) (J₁ J₂ : Junk (Cx CR)) {f₁ p₁ f₂ p₂ z₁ z₂ : List CR}
    (hf : f₁.length = P₁.nx * P₁.nlat * P₁.nphi) (hp : p₁.length = P₁.nx * P₁.nlat * P₁.nphi) (hz₁ : z₁.length = P₁.nx * P₁.nlat * P₁.nphi)
    (hz₂ : z₂.length = P₁.nx * P₁.nlat * P₁.nphi) (hF : Scaled c f₁ f₂) (hQ : Scaled c p₁ p₂) (hff : AllFin f₁) (hpf : AllFin p₁)
    (hne : ∀ i, i < f₁.length → gv f₁ i ≠ fin (-1) ∧ gv f₂ i ≠ fin (-1)) :
    ∃ a₁ a₂ D₁ D₂, e₁.set_rho g J₁ f₁ p₁ z₁ = .ok (a₁, D₁) ∧ e₂.set_rho g J₂ f₂ p₂ z₂ = .ok (a₂, D₂) ∧ AllFin D₁ ∧ Scaled (c ^ 2) D₁ D₂ := by
  have ht := h₁.setup.total
  obtain ⟨pr, p2r, ph, lap, fl, o⟩ := h₁.ops
  obtain ⟨X, x1, _, x3⟩ := h₁.opX
  obtain ⟨y, a1, a2⟩ := hF.rel (hf.trans ht.symm) hff
  obtain ⟨z, b1, b2⟩ := hQ.rel (hp.trans ht.symm) hpf
  have hv : ∀ i, i < g.d.total → ∃ r : ℝ, gv (e₁.rhoP g f₁ p₁) i = fin r ∧ gv (e₂.rhoP g f₂ p₂) i = fin (c ^ 2 * r) := by
    intro i hi
    obtain ⟨cc, hcc⟩ := h₁.coef_fin he₁ ho h0 h1 h2 hi
    obtain ⟨n1, n2⟩ := hne i (by rw [hf, ← ht]; exact hi)
    rw [a1.2 i hi] at n1
    rw [a2.2 i hi] at n2
    have n1' : y i ≠ -1 := fun hh => n1 (by rw [hh])
    have n2' : c * y i ≠ -1 := fun hh => n2 (by beta_reduce; rw [hh])
    refine ⟨rhoR q cc ⟨y i, z i, pr y i, 0, 0, 0, ph y i, 0, 0, X y i⟩, ?_, ?_⟩
    · unfold Eom.rhoP
      rw [gv_tab hi, hcc, a1.2 i hi, b1.2 i hi, (o.pr.1 _ _ a1).2 i hi, (o.ph.1 _ _ a1).2 i hi, (x1 _ _ a1).2 i hi]
      exact he₁.rho_real h₁.setup h₁.phys cc (j := ⟨y i, z i, pr y i, 0, 0, 0, ph y i, 0, 0, X y i⟩) n1'
    · unfold Eom.rhoP
      rw [gv_tab hi, same_coef h₁ h₂ ⟨rfl, rfl, rfl, rfl⟩ he₁ he₂, hcc, a2.2 i hi, b2.2 i hi, (lin_smul o.pr.1 o.pr.2.1 a2).2 i hi,
        (lin_smul o.ph.1 o.ph.2.1 a2).2 i hi, (x1 _ _ a2).2 i hi, x3 _ _ i hi]
      refine (he₂.rho_real h₂.setup h₂.phys cc (j := ⟨c * y i, c * z i, c * pr y i, 0, 0, 0, c * ph y i, 0, 0, c ^ 2 * X y i⟩) n2').trans ?_
      rw [fin_inj]
      unfold rhoR
      dsimp only
      rw [kin_refield hc hk, pot_refield hc]
      ring
  refine ⟨_, _, _, _, Eom.set_rho_eq h₁.setup.wf (he₁.wf h₁.setup) J₁ (hf.trans ht.symm) (hp.trans ht.symm) (hz₁.trans ht.symm),
    Eom.set_rho_eq h₂.setup.wf (he₂.wf h₂.setup) J₂ ((hF.1.trans hf).trans ht.symm) ((hQ.1.trans hp).trans ht.symm) (hz₂.trans ht.symm), ?_, by simp,
    fun i hi => ?_⟩
  · exact (allFin_iff (by simp)).mpr fun i hi => ⟨_, (hv i hi).choose_spec.1⟩
  · rw [Eom.rhoP_length] at hi
    obtain ⟨r, k1, k2⟩ := hv i hi
    rw [k1, k2, fin_mul]

/-- C113 is false of the code at the value `-1`, which the code treats as a pole although there is no pole term (`km1=0`): a constant field `-1/c`, with a
kinetic function that does not vanish there, has a finite time derivative everywhere; the same field in the other unit has a finite time derivative nowhere. -/
theorem C113_pole_is_absolute (hc : c ≠ 0) (hc1 : c ≠ 1) (hk : q.km1 = 0) (hkin : q.kin (-c⁻¹) ≠ 0) (h₁ : Exact E P₁ g q x A)
    (h₂ : Exact E P₂ g (q.refield c) x A) (ho : q.Ok) (h0 : 0 < q.lo) (h1 : q.lo < q.up) (h2 : q.up ≤ q.L) (he₁ : Eom.Of g P₁ e₁)
    (he₂ : Eom.Of g P₂ e₂) (J₁ J₂ : Junk (Cx CR)) {f₁ f₂ p : List CR} (hf : f₁.length = P₁.nx * P₁.nlat * P₁.nphi)
    (hp : p.length = P₁.nx * P₁.nlat * P₁.nphi) (hpf : AllFin p) (hF : ∀ i, i < f₁.length → gv f₁ i = fin (-c⁻¹)) (hF₂ : Scaled c f₁ f₂) :
    ∃ a₁ a₂ D₁ D₂, e₁.set_k g J₁ f₁ p p p = .ok (a₁, p, D₁) ∧ e₂.set_k g J₂ f₂ p p p = .ok (a₂, p, D₂) ∧
      AllFin D₁ ∧ ∀ i, i < P₁.nx * P₁.nlat * P₁.nphi → gv D₂ i = bad := by
  have ht := h₁.setup.total
  obtain ⟨z, hz⟩ := hpf.isF (hp.trans ht.symm)
  have i1 : IsF g.d.total f₁ fun _ => -c⁻¹ := ⟨hf.trans ht.symm, fun i hi => hF i (by rw [hf, ← ht]; exact hi)⟩
  have i2 : IsF g.d.total f₂ fun _ => -1 := ⟨(hF₂.1.trans hf).trans ht.symm, fun i hi => by
    rw [hF₂.2 i (by rw [hf, ← ht]; exact hi), i1.2 i hi, fin_mul, fin_inj]
    field_simp⟩
  refine ⟨_, _, _, _, Eom.set_k_eq h₁.setup.wf (he₁.wf h₁.setup) J₁ i1.1 hz.1 hz.1 hz.1, Eom.set_k_eq h₂.setup.wf (he₂.wf h₂.setup) J₂ i2.1 hz.1 hz.1 hz.1,
    (allFin_iff (n := g.d.total) (by simp)).mpr fun i hi => ?_, fun i hi => ?_⟩
  · refine (rhs_real h₁ he₁ ho h0 h1 h2 i1 hz hi).mpr ⟨?_, hkin⟩
    intro hh
    have := inv_eq_one.mp (neg_inj.mp hh)
    exact hc1 this
  · rw [← ht] at hi
    have := (rhs_real h₂ he₂ ⟨ho.1, ho.2, ho.3, ho.4⟩ h0 h1 h2 i2 hz hi).not.mpr (by simp)
    cases hh : gv (e₂.rhs g f₂ p) i with
    | bad => rfl
    | fin r => exact absurd ⟨r, hh⟩ this

/-! ## C114 -/

/-- the radial derivatives of a constant -/
theorem radial_const (h : Exact E P g q x A) (hx : 3 ≤ P.nx) (hL : 0 < q.L) (h0 : 0 < q.lo) (h1 : q.lo < q.up) (h2 : q.up ≤ q.L) (y : ℝ) {v : List CR}
    (hv : IsF g.d.total v fun _ => y) : IsF g.d.total (g.prP v) (fun _ => 0) ∧ IsF g.d.total (g.p2rP v) fun _ => 0 := by
  have hw := h.setup.wf
  have ht := h.setup.total
  obtain ⟨o1, o2, k1, k2, k3⟩ := C32_chain_rule h.env.sized (fun _ => h.env.fftw) h.setup.sizes hL h1 (by rw [← h.phys.L, ← h.phys.lo, ← h.phys.up]; exact h.setup.grid)
    (fun _ _ => Polynomial.C y) (fun _ _ => by
      split_ifs
      · refine lt_of_le_of_lt Polynomial.degree_C_le ?_
        exact_mod_cast (by omega : 0 < P.nx - 2)
      · simp) (v := v) (dv := v) (hv.1.trans ht) (hv.1.trans ht) (fun ix it ip a b d => by
        have hr := h.setup.inR a b d
        rw [hw.ok.at3_eq _ hr, hv.2 _ (g.d.pos3_lt hr)]
        simp)
  rw [hw.set_partial_r_eq hv.1 hv.1] at k1
  rw [hw.set_partial2_r_eq hv.1 hv.1] at k2
  cases k1; cases k2
  have key : ∀ i, i < g.d.total → gv (g.prP v) i = fin 0 ∧ gv (g.p2rP v) i = fin 0 := by
    intro i hi
    obtain ⟨d1, d2⟩ := g.d.dec3 hi
    obtain ⟨ix, hix⟩ : ∃ ix, ix = g.d.dX i := ⟨_, rfl⟩
    have b1 : g.d.dX i < P.nx := by rw [← h.nx]; exact d1.1
    have b2 : g.d.dT i < P.nlat := by rw [← h.nlat]; exact d1.2.1
    have b3 : g.d.dP i < P.nphi := by rw [← h.nphi]; exact d1.2.2
    obtain ⟨y1, y2, m1, m2, m3⟩ := k3 _ _ _ b1 b2 b3
    rw [hw.ok.at3_eq _ d1, d2] at m1 m2
    rw [m1, m2, fin_inj, fin_inj]
    obtain ⟨m4, m5⟩ := m3 _ rfl
    obtain ⟨r1, r2⟩ := radPt_mem (c := E.useCheb) (show 2 ≤ P.nx by omega) h1.le b1
    rcases lt_or_eq_of_le (r2.trans h2) with hl | hl
    · obtain ⟨n1, n2⟩ := m4 (lt_of_lt_of_le h0 r1) hl
      have c1 : (fun r : ℝ => (Polynomial.C y).eval (compR q.L r)) = fun _ => y := by funext r; simp
      have c2 : deriv (fun r : ℝ => (Polynomial.C y).eval (compR q.L r)) = fun _ => 0 := by rw [c1]; funext r; simp
      rw [c2] at n2
      rw [c1] at n1
      exact ⟨n1.unique (hasDerivAt_const _ _), n2.unique (hasDerivAt_const _ _)⟩
    · exact m5 hl
  exact ⟨⟨by simp, fun i hi => (key i hi).1⟩, by simp, fun i hi => (key i hi).2⟩


/-- an operator that kills constants does not see one -/
theorem lin_raise {n : ℕ} {T : List CR → List CR} {D : (ℕ → ℝ) → ℕ → ℝ} (hT : ActsF n T D) (hD : LinF n D)
    (h0 : ∀ i, i < n → D (fun _ => 1) i = 0) {w : List CR} {y : ℕ → ℝ} {k : ℝ} (hw : IsF n w fun i => y i + k) : IsF n (T w) (D y) := by
  refine (hT w _ hw).congr fun i hi => ?_
  have := hD 1 k y (fun _ => 1) i hi
  rw [h0 i hi] at this
  simpa using this

/-- `v` holds `y` and `w` holds `y + c`. -/
def RaiF (n : ℕ) (c : ℝ) (v w : List CR) : Prop := ∃ y : ℕ → ℝ, IsF n v y ∧ IsF n w fun i => y i + c

theorem Raised.rel {n : ℕ} {c : ℝ} {v w : List CR} (h : Raised c v w) (hv : v.length = n) (hf : AllFin v) : RaiF n c v w := by
  obtain ⟨y, hy⟩ := hf.isF hv
  refine ⟨y, hy, h.1.trans hv, fun i hi => ?_⟩
  rw [h.2 i (hv ▸ hi), hy.2 i hi, fin_add]

theorem RaiF.raised {n : ℕ} {c : ℝ} {v w : List CR} (h : RaiF n c v w) : Raised c v w := by
  obtain ⟨y, a1, a2⟩ := h
  refine ⟨a2.1.trans a1.1.symm, fun i hi => ?_⟩
  rw [a1.1] at hi
  rw [a1.2 i hi, a2.2 i hi, fin_add]

theorem spherical_const (h : Exact E P g q x A) {v : List CR} {k : ℝ} (hv : IsF g.d.total v fun _ => k) : Spherical g.d v := by
  intro ix it ip it' ip' a b1 b2 b3 b4
  have hw := h.setup.wf
  rw [hw.ok.at3_eq _ ⟨a, b1, b2⟩, hw.ok.at3_eq _ ⟨a, b3, b4⟩, hv.2 _ (g.d.pos3_lt ⟨a, b1, b2⟩), hv.2 _ (g.d.pos3_lt ⟨a, b3, b4⟩)]

theorem pair_raise (h : Exact E P g q x A) (ho : q.Ok) (hx : 3 ≤ P.nx) (hm : 1 ≤ P.nm) (h0 : 0 < q.lo) (h1 : q.lo < q.up) (h2 : q.up ≤ q.L)
    (z1 : q.km1 = 0) (z2 : q.k1 = 0) (z3 : q.k2 = 0) (z4 : q.V2 = 0) (z5 : q.V3 = 0) (z6 : q.V4 = 0) (he₁ : Eom.Of g P e₁) (he₂ : Eom.Of g P e₂) :
    Pair e₁ e₂ g (RaiF g.d.total c) (RaiF g.d.total 0) := by
  obtain ⟨_, _, _, _, _, _, _, d1⟩ := he₁.par h.setup h.phys
  obtain ⟨_, _, _, _, _, _, _, d2⟩ := he₂.par h.setup h.phys
  obtain ⟨pr, p2r, ph, lap, fl, o⟩ := h.ops
  obtain ⟨X, x1, _, x3⟩ := h.opX
  have hcoef : e₂.coef = e₁.coef := by
    obtain ⟨s₁, _, rfl⟩ := he₁.eq h.setup
    obtain ⟨s₂, _, rfl⟩ := he₂.eq h.setup
    rfl
  obtain ⟨u, hu⟩ : ∃ u : List CR, IsF g.d.total u fun _ => 1 := ⟨tab g.d.total fun _ => fin 1, by simp, fun i hi => gv_tab hi⟩
  obtain ⟨r1, r2⟩ := radial_const h hx ho.L_pos h0 h1 h2 1 hu
  have hsu := spherical_const h hu
  have ang := fun i (hi : i < g.d.total) => spherical_angular h hm hsu hu.1 hu.allFin hi
  have kr : ∀ i, i < g.d.total → pr (fun _ => 1) i = 0 := fun i hi => by
    have := (o.pr.1 _ _ hu).2 i hi; rw [r1.2 i hi, fin_inj] at this; exact this.symm
  have krr : ∀ i, i < g.d.total → p2r (fun _ => 1) i = 0 := fun i hi => by
    have := (o.p2r.1 _ _ hu).2 i hi; rw [r2.2 i hi, fin_inj] at this; exact this.symm
  have kph : ∀ i, i < g.d.total → ph (fun _ => 1) i = 0 := fun i hi => by
    have := (o.ph.1 _ _ hu).2 i hi; rw [(ang i hi).1, fin_inj] at this; exact this.symm
  have klap : ∀ i, i < g.d.total → lap (fun _ => 1) i = 0 := fun i hi => by
    have := (o.lap.1 _ _ hu).2 i hi; rw [(ang i hi).2.1, fin_inj] at this; exact this.symm
  have kfl : ∀ i, i < g.d.total → fl (fun _ => 1) i = 1 := fun i hi => by
    have := (o.fl.1 _ _ hu).2 i hi; rw [spherical_filt h hsu hu.1 hu.allFin, hu.2 i hi, fin_inj] at this; exact this.symm
  have fi : ∀ (k : ℝ) u w, RaiF g.d.total k u w → RaiF g.d.total k (g.filtP u) (g.filtP w) := by
    rintro k u w ⟨y, a, b⟩
    refine ⟨fl y, o.fl.1 _ _ a, (o.fl.1 _ _ b).congr fun i hi => ?_⟩
    have := o.fl.2.1 1 k y (fun _ => 1) i hi
    rw [kfl i hi] at this
    simpa using this
  have ax : ∀ (k : ℝ) u w v v' (d : ℝ), RaiF g.d.total k u w → RaiF g.d.total 0 v v' →
      RaiF g.d.total k (Eom.ax g.d.total u (fin d) v) (Eom.ax g.d.total w (fin d) v') := by
    rintro k u w v v' d ⟨y, a1, a2⟩ ⟨z, b1, b2⟩
    refine ⟨fun i => y i + d * z i, ⟨by simp, fun i hi => ?_⟩, ⟨by simp, fun i hi => ?_⟩⟩
    · rw [Eom.ax_gv hi, a1.2 i hi, b1.2 i hi, fin_mul, fin_add]
    · rw [Eom.ax_gv hi, a2.2 i hi, b2.2 i hi, fin_mul, fin_add, fin_inj]
      ring
  refine ⟨⟨q.dt, d1, d2⟩, ax c, ax 0, fi c, fi 0, ?_, ?_⟩
  · rintro f₁ f₂ p₁ p₂ ⟨y, a1, a2⟩ ⟨z, b1, b2⟩ n1 n2
    obtain ⟨s₁, hr₁⟩ := n1.isF (n := g.d.total) (by simp)
    obtain ⟨s₂, hr₂⟩ := n2.isF (n := g.d.total) (by simp)
    refine ⟨s₁, hr₁, hr₂.congr fun i hi => ?_⟩
    have k1 := hr₁.2 i hi
    have k2 := hr₂.2 i hi
    unfold Eom.rhs at k1 k2
    rw [gv_tab hi] at k1 k2
    have e4 := lin_raise o.ph.1 o.ph.2.1 kph a2
    rw [a1.2 i hi, b1.2 i hi, (o.pr.1 _ _ a1).2 i hi, (o.pr.1 _ _ b1).2 i hi, (o.p2r.1 _ _ a1).2 i hi, (o.ph.1 _ _ a1).2 i hi,
      (o.pr.1 _ _ (o.ph.1 _ _ a1)).2 i hi, (x1 _ _ a1).2 i hi, (o.lap.1 _ _ a1).2 i hi] at k1
    rw [hcoef, a2.2 i hi, b2.2 i hi, (lin_raise o.pr.1 o.pr.2.1 kr a2).2 i hi, (lin_raise o.pr.1 o.pr.2.1 kr b2).2 i hi,
      (lin_raise o.p2r.1 o.p2r.2.1 krr a2).2 i hi, e4.2 i hi, (o.pr.1 _ _ e4).2 i hi, (x1 _ _ a2).2 i hi,
      (lin_raise o.lap.1 o.lap.2.1 klap a2).2 i hi] at k2
    obtain ⟨cc, kp, ik, vp, f', p', r', vr', rr', ph', rph', X', lap', ⟨c1, c2, c3, c4, c5, c6, c7, c8, c9, c10, c11, c12⟩, ⟨m1, m2, m3⟩,
      ⟨v1, v2, v3, v4, v5, v6, v7, v8, v9⟩, y1⟩ := pk_fin k1
    obtain ⟨dd, kp', ik', vp', g', p'', r'', vr'', rr'', ph'', rph'', X'', lap'', ⟨w1, w2, w3, w4, w5, w6, w7, w8, w9, w10, w11, w12⟩, ⟨l1, l2, l3⟩,
      ⟨u1, u2, u3, u4, u5, u6, u7, u8, u9⟩, y2⟩ := pk_fin k2
    rw [c1] at w1; rw [c2] at w2; rw [c3] at w3; rw [c4] at w4; rw [c5] at w5; rw [c6] at w6
    rw [fin_inj] at w1 w2 w3 w4 w5 w6 v1 v2 v3 v4 v5 v6 v7 v8 v9 u1 u2 u3 u4 u5 u6 u7 u8 u9
    obtain ⟨t1, _, t3⟩ := local_fin h he₁ z1 m1 m2 m3
    obtain ⟨t1', _, t3'⟩ := local_fin h he₂ z1 l1 l2 l3
    rw [z2, z3] at t1 t1'
    rw [z4, z5, z6] at t3 t3'
    rw [y1, y2, t1, t1', t3, t3', ← w1, ← w2, ← w3, ← w4, ← w5, ← w6, ← u1, ← u2, ← u3, ← u4, ← u6, ← u8, ← v1, ← v2, ← v3, ← v4, ← v6, ← v8]
    ring
  · rintro u w (⟨y, a, b⟩ | ⟨y, a, b⟩) <;> exact ⟨a.1, b.1⟩

/-- C114 (partial: the code violates it for fields that reach `-1` before or after the shift, see C114_pole_is_absolute): for a massless free field adding a
constant to the initial field adds the same constant to the field after any number of steps and leaves the velocity unchanged, as long as both runs stay
finite. -/
theorem C114_shift_partial (h : Exact E P g q x A) (ho : q.Ok) (hx : 3 ≤ P.nx) (hm : 1 ≤ P.nm) (h0 : 0 < q.lo) (h1 : q.lo < q.up) (h2 : q.up ≤ q.L)
    (z1 : q.km1 = 0) (z2 : q.k1 = 0) (z3 : q.k2 = 0) (z4 : q.V2 = 0) (z5 : q.V3 = 0) (z6 : q.V4 = 0) (he₁ : Eom.Of g P e₁) (he₂ : Eom.Of g P e₂)
    (J₁ J₂ : ℕ → Junk (Cx CR)) {f₁ p₁ f₂ p₂ : Field CR} (hf₁ : f₁.Sized (P.nx * P.nlat * P.nphi)) (hp₁ : p₁.Sized (P.nx * P.nlat * P.nphi))
    (hf₂ : f₂.Sized (P.nx * P.nlat * P.nphi)) (hp₂ : p₂.Sized (P.nx * P.nlat * P.nphi)) (N : ℕ) (hF : Raised c f₁.n f₂.n) (hQ : p₂.n = p₁.n)
    (hfin₁ : StaysFinite g e₁ f₁ p₁ N) (hfin₂ : StaysFinite g e₂ f₂ p₂ N) :
    ∃ a₁ a₂ F₁ F₂ Q₁ Q₂, evolve g J₁ e₁ f₁ p₁ N = .ok (a₁, F₁, Q₁) ∧ evolve g J₂ e₂ f₂ p₂ N = .ok (a₂, F₂, Q₂) ∧ Raised c F₁.n F₂.n ∧ Q₂.n = Q₁.n := by
  have ht := h.setup.total
  have hev₁ := fun j hj => hfin₁.evoP h.setup he₁ hf₁ hp₁ j hj
  have hev₂ := fun j hj => hfin₂.evoP h.setup he₂ hf₂ hp₂ j hj
  obtain ⟨s1, F₁, Q₁, a1, _, _, _, a5, a6⟩ := evolve_eq h.setup he₁ J₁ hf₁ hp₁ N
  obtain ⟨s2, F₂, Q₂, b1, _, _, _, b5, b6⟩ := evolve_eq h.setup he₂ J₂ hf₂ hp₂ N
  obtain ⟨z, hz⟩ := (hev₁ 0 (Nat.zero_le _)).2.isF (hp₁.1.trans ht.symm)
  obtain ⟨k1, y, k2, k3⟩ := (pair_raise (c := c) h ho hx hm h0 h1 h2 z1 z2 z3 z4 z5 z6 he₁ he₂).evo
    (hF.rel (hf₁.1.trans ht.symm) (hev₁ 0 (Nat.zero_le _)).1) (Q₁ := p₁.n) (Q₂ := p₂.n)
    ⟨z, hz, by rw [hQ]; exact hz.congr fun i _ => (add_zero _).symm⟩ N hev₁ hev₂
  exact ⟨_, _, F₁, F₂, Q₁, Q₂, a1, b1, by rw [a5, b5]; exact k1.raised, by rw [a6, b6]; exact (k3.congr fun i _ => add_zero _).ext k2⟩

/-- C114, energy density (partial: away from the value `-1` before and after the shift): the shift does not change it. -/
theorem C114_density_partial (h : Exact E P g q x A) (ho : q.Ok) (hx : 3 ≤ P.nx) (hm : 1 ≤ P.nm) (h0 : 0 < q.lo) (h1 : q.lo < q.up) (h2 : q.up ≤ q.L)
    (z1 : q.km1 = 0) (z2 : q.k1 = 0) (z3 : q.k2 = 0) (z4 : q.V2 = 0) (z5 : q.V3 = 0) (z6 : q.V4 = 0) (he₁ : Eom.Of g P e₁) (he₂ : Eom.Of g P e₂)
    (J₁ J₂ : Junk (Cx CR)) {f₁ p f₂ y₁ y₂ : List CR} (hf : f₁.length = P.nx * P.nlat * P.nphi) (hp : p.length = P.nx * P.nlat * P.nphi)
    (hy₁ : y₁.length = P.nx * P.nlat * P.nphi) (hy₂ : y₂.length = P.nx * P.nlat * P.nphi) (hF : Raised c f₁ f₂) (hff : AllFin f₁)
    (hne : ∀ i, i < f₁.length → gv f₁ i ≠ fin (-1) ∧ gv f₂ i ≠ fin (-1)) :
    ∃ a₁ a₂ D, e₁.set_rho g J₁ f₁ p y₁ = .ok (a₁, D) ∧ e₂.set_rho g J₂ f₂ p y₂ = .ok (a₂, D) := by
  have ht := h.setup.total
  obtain ⟨y, b1, b2⟩ := hF.rel (hf.trans ht.symm) hff
  obtain ⟨pr, p2r, ph, lap, fl, o⟩ := h.ops
  obtain ⟨u, hu⟩ : ∃ u : List CR, IsF g.d.total u fun _ => 1 := ⟨tab g.d.total fun _ => fin 1, by simp, fun i hi => gv_tab hi⟩
  obtain ⟨r1, _⟩ := radial_const h hx ho.L_pos h0 h1 h2 1 hu
  have hsu := spherical_const h hu
  have ang := fun i (hi : i < g.d.total) => spherical_angular h hm hsu hu.1 hu.allFin hi
  have kr : ∀ i, i < g.d.total → pr (fun _ => 1) i = 0 := fun i hi => by
    have := (o.pr.1 _ _ hu).2 i hi; rw [r1.2 i hi, fin_inj] at this; exact this.symm
  have kph : ∀ i, i < g.d.total → ph (fun _ => 1) i = 0 := fun i hi => by
    have := (o.ph.1 _ _ hu).2 i hi; rw [(ang i hi).1, fin_inj] at this; exact this.symm
  have hcoef : e₂.coef = e₁.coef := by
    obtain ⟨s₁, _, rfl⟩ := he₁.eq h.setup
    obtain ⟨s₂, _, rfl⟩ := he₂.eq h.setup
    rfl
  have key : e₂.rhoP g f₂ p = e₁.rhoP g f₁ p := by
    unfold Eom.rhoP
    refine tab_congr fun i hi => ?_
    obtain ⟨n1, n2⟩ := hne i (by rw [hf, ← ht]; exact hi)
    rw [b1.2 i hi] at n1
    rw [b2.2 i hi] at n2
    have n1' : y i ≠ -1 := fun hh => n1 (by rw [hh])
    have n2' : y i + c ≠ -1 := fun hh => n2 (by beta_reduce; rw [hh])
    rw [hcoef, psphXP_raise h hm b1 b2, (lin_raise o.pr.1 o.pr.2.1 kr b2).2 i hi, (lin_raise o.ph.1 o.ph.2.1 kph b2).2 i hi, (o.pr.1 _ _ b1).2 i hi,
      (o.ph.1 _ _ b1).2 i hi, b1.2 i hi, b2.2 i hi]
    unfold Eom.rhoVal
    rw [he₁.kVal h.setup h.phys n1', he₁.vVal h.setup h.phys, he₂.kVal h.setup h.phys n2', he₂.vVal h.setup h.phys]
    have e1 : ∀ t, q.kin t = q.k0 := fun t => by simp [Phys.kin, Kerr.kin, z1, z2, z3]
    have e2 : ∀ t, q.pot t = 0 := fun t => by simp [Phys.pot, Kerr.pot, z4, z5, z6]
    rw [e1, e1, e2, e2]
  have r := Eom.set_rho_eq h.setup.wf (he₂.wf h.setup) J₂ b2.1 (hp.trans ht.symm) (hy₂.trans ht.symm)
  rw [key] at r
  exact ⟨_, _, _, Eom.set_rho_eq h.setup.wf (he₁.wf h.setup) J₁ b1.1 (hp.trans ht.symm) (hy₁.trans ht.symm), r⟩

/-- C114 is false of the code at the value `-1`, which the code treats as a pole although there is no pole term: the vacuum stays zero for ever, the same field
shifted by `-1` has a finite time derivative nowhere. -/
theorem C114_pole_is_absolute (h : Exact E P g q x A) (ho : q.Ok) (h0 : 0 < q.lo) (h1 : q.lo < q.up) (h2 : q.up ≤ q.L) (z1 : q.km1 = 0) (z0 : q.k0 ≠ 0)
    (he₁ : Eom.Of g P e₁) (he₂ : Eom.Of g P e₂) (J₁ : ℕ → Junk (Cx CR)) (J₂ : Junk (Cx CR)) {f p : Field CR} (hf : f.Sized (P.nx * P.nlat * P.nphi))
    (hp : p.Sized (P.nx * P.nlat * P.nphi)) {f₂ : List CR} (hF : ∀ i, i < P.nx * P.nlat * P.nphi → gv f.n i = fin 0)
    (hQ : ∀ i, i < P.nx * P.nlat * P.nphi → gv p.n i = fin 0) (hF₂ : Raised (-1) f.n f₂) :
    (∀ N, ∃ a F Q, evolve g J₁ e₁ f p N = .ok (a, F, Q) ∧ ∀ i, i < P.nx * P.nlat * P.nphi → gv F.n i = fin 0 ∧ gv Q.n i = fin 0) ∧
    ∃ a₂ D, e₂.set_k g J₂ f₂ p.n p.n p.n = .ok (a₂, p.n, D) ∧ ∀ i, i < P.nx * P.nlat * P.nphi → gv D i = bad := by
  have ht := h.setup.total
  constructor
  · intro N
    obtain ⟨a, F, Q, k1, _, _, k4, k5⟩ := C48_vacuum_stays h he₁ ho h0 h1 h2 (by rw [z1, add_zero]; exact z0) J₁ hf hp hF hQ N
    exact ⟨a, F, Q, k1, fun i hi => ⟨k4 i hi, k5 i hi⟩⟩
  · have hz : IsF g.d.total p.n fun _ => 0 := ⟨hp.1.trans ht.symm, fun i hi => hQ i (by rw [← ht]; exact hi)⟩
    have i2 : IsF g.d.total f₂ fun _ => -1 := ⟨(hF₂.1.trans hf.1).trans ht.symm, fun i hi => by
      rw [hF₂.2 i (by rw [hf.1, ← ht]; exact hi), hF i (by rw [← ht]; exact hi), fin_add, zero_add]⟩
    refine ⟨_, _, Eom.set_k_eq h.setup.wf (he₂.wf h.setup) J₂ i2.1 hz.1 hz.1 hz.1, fun i hi => ?_⟩
    rw [← ht] at hi
    have := (rhs_real h he₂ ho h0 h1 h2 i2 hz hi).not.mpr (by simp)
    cases hh : gv (e₂.rhs g f₂ p.n) i with
    | bad => rfl
    | fin r => exact absurd ⟨r, hh⟩ this

/-! ## Non-vacuity -/

/-- the set-up with another Lagrangian -/
theorem Exact.lagr (h : Exact E P g q x A) (km1 k0 k1 k2 V2 V3 V4 : ℝ) :
    Exact E { P with km1 := fin km1, k0 := fin k0, k1 := fin k1, k2 := fin k2, V2 := fin V2, V3 := fin V3, V4 := fin V4 } g
      { q with km1 := km1, k0 := k0, k1 := k1, k2 := k2, V2 := V2, V3 := V3, V4 := V4 } x A :=
  ⟨⟨⟨h.setup.sized, h.setup.sizes, h.setup.grid⟩, h.setup.orders⟩, h.env, ⟨h.phys.M, h.phys.a, h.phys.L, h.phys.lo, h.phys.up, h.phys.dt, rfl, rfl, rfl,
    rfl, rfl, rfl, rfl⟩, h.lu, h.L0⟩

/-- non-vacuity of C112: two set-ups, the second with all coefficients multiplied by -3, and C112 applied to them. -/
example (contig ndebug useCheb : Bool) : ∃ (E : Env CR) (P₂ : ParamRec CR) (x : ℕ → ℝ) (A : ℕ → ℕ → ℕ → ℝ) (g : Grid CR) (e₁ e₂ : Eom CR),
    Exact E demoP g demoQ x A ∧ Exact E P₂ g (demoQ.times (-3)) x A ∧ Eom.Of g demoP e₁ ∧ Eom.Of g P₂ e₂ ∧ demoQ.k0 ≠ 0 ∧ demoQ.V4 ≠ 0 := by
  obtain ⟨E, x, A, g, e, h1, h2, h3, h4, h5, h6, h7⟩ := demo_setup contig ndebug useCheb
  obtain ⟨_, _, _, _, _, hF, _, _⟩ := free_exact contig ndebug useCheb
  have h : Exact E demoP g demoQ x A := ⟨h5, h4, demo_is, hF.lu, hF.L0⟩
  obtain ⟨e₁, _, he₁⟩ := Eom.Of.exists h.setup
  have hx := h.lagr (-3 * demoQ.km1) (-3 * demoQ.k0) (-3 * demoQ.k1) (-3 * demoQ.k2) (-3 * demoQ.V2) (-3 * demoQ.V3) (-3 * demoQ.V4)
  obtain ⟨e₂, _, he₂⟩ := Eom.Of.exists hx.setup
  exact ⟨E, _, x, A, g, e₁, e₂, h, hx, he₁, he₂, by simp [demoQ], by simp [demoQ]⟩

/-- non-vacuity of C113: two set-ups, the second with the field measured in units of 1/2, and runs of three steps that stay finite. -/
example (contig ndebug useCheb : Bool) : ∃ (E : Env CR) (P₂ : ParamRec CR) (x : ℕ → ℝ) (A : ℕ → ℕ → ℕ → ℝ) (g : Grid CR) (e₁ e₂ : Eom CR) (f₁ f₂ : Field CR),
    Exact E freeP g freeQ x A ∧ Exact E P₂ g (freeQ.refield 2) x A ∧ freeQ.km1 = 0 ∧ Eom.Of g freeP e₁ ∧ Eom.Of g P₂ e₂ ∧ freeQ.Ok ∧ 0 < freeQ.lo ∧
    freeQ.lo < freeQ.up ∧ freeQ.up ≤ freeQ.L ∧ freeQ.kin (-2⁻¹) ≠ 0 ∧ freeQ.V2 ≠ 0 ∧
    f₁.Sized (freeP.nx * freeP.nlat * freeP.nphi) ∧ f₂.Sized (P₂.nx * P₂.nlat * P₂.nphi) ∧ Scaled 2 f₁.n f₂.n ∧ StaysFinite g e₁ f₁ f₁ 3 ∧
    StaysFinite g e₂ f₂ f₂ 3 ∧ gv f₁.n 0 ≠ fin 0 ∧ (∀ i, i < f₁.n.length → gv f₁.n i ≠ fin (-1) ∧ gv f₂.n i ≠ fin (-1)) := by
  obtain ⟨E, x, A, g, e₁, h, he₁, ho, h0, h1, h2, hk0, hk⟩ := free_exact contig ndebug useCheb
  have hx := h.lagr freeQ.km1 freeQ.k0 (freeQ.k1 / 2) (freeQ.k2 / 2 ^ 2) freeQ.V2 (freeQ.V3 / 2) (freeQ.V4 / 2 ^ 2)
  obtain ⟨e₂, _, he₂⟩ := Eom.Of.exists hx.setup
  have ht := h.setup.total
  have hpos : 0 < g.d.total := by rw [ht]; show 0 < freeP.nx * freeP.nlat * freeP.nphi; decide
  obtain ⟨y, hy⟩ : ∃ y : ℕ → ℝ, y = fun i : ℕ => (i : ℝ) + 1 := ⟨_, rfl⟩
  obtain ⟨ε₁, p1, k1⟩ := C74_small_free_fields_stay_finite h he₁ ho h0 h1 h2 hk0 rfl rfl rfl rfl rfl y y 3
  obtain ⟨ε₂, p2, k2⟩ := C74_small_free_fields_stay_finite hx he₂ ⟨ho.1, ho.2, ho.3, ho.4⟩ h0 h1 h2 hk0 rfl (by simp [freeQ, demoQ]) (by simp [freeQ, demoQ])
    (by simp [freeQ, demoQ]) (by simp [freeQ, demoQ]) y y 3
  obtain ⟨a, ha⟩ : ∃ a : ℝ, a = min ε₁ ε₂ / 4 := ⟨_, rfl⟩
  have hm : 0 < min ε₁ ε₂ := lt_min p1 p2
  have m1 := min_le_left ε₁ ε₂
  have m2 := min_le_right ε₁ ε₂
  have ha0 : 0 < a := by rw [ha]; linarith
  obtain ⟨mk, hmkd⟩ : ∃ mk : (ℕ → ℝ) → Field CR, mk = fun w => ⟨"f", tab g.d.total fun i => fin (w i), tab g.d.total fun i => fin (w i),
    tab g.d.total fun i => fin (w i), tab g.d.total fun i => fin (w i), g.d.total⟩ := ⟨_, rfl⟩
  have hmk : ∀ w, (mk w).Sized (freeP.nx * freeP.nlat * freeP.nphi) := fun w => by rw [← ht, hmkd]; simp [Field.Sized]
  have hgv : ∀ (w : ℕ → ℝ) i, i < g.d.total → gv (mk w).n i = fin (w i) := fun w i hi => by rw [hmkd]; exact gv_tab hi
  have hlen : ∀ w, (mk w).n.length = g.d.total := fun w => by rw [hmkd]; simp
  have hyp : ∀ i, 0 < y i := fun i => by rw [hy]; positivity
  refine ⟨E, _, x, A, g, e₁, e₂, mk fun i => a * y i, mk fun i => 2 * a * y i, h, hx, rfl, he₁, he₂, ho, h0, h1, h2, ?_, by simp [freeQ, demoQ], hmk _, hmk _,
    ⟨by rw [hlen, hlen], fun i hi => ?_⟩, ?_, ?_, ?_, fun i hi => ?_⟩
  · simp [Phys.kin, Kerr.kin, freeQ, demoQ]
  · rw [hlen] at hi
    rw [hgv _ i hi, hgv _ i hi, fin_mul, mul_assoc]
  · exact k1 a (by rw [abs_of_pos ha0, ha]; linarith) _ _ (hmk _) (hmk _) (fun i hi => hgv _ i (by rw [ht]; exact hi))
      (fun i hi => hgv _ i (by rw [ht]; exact hi))
  · exact k2 (2 * a) (by rw [abs_of_pos (by linarith), ha]; linarith) _ _ (hmk _) (hmk _) (fun i hi => hgv _ i (by rw [ht]; exact hi))
      (fun i hi => hgv _ i (by rw [ht]; exact hi))
  · rw [hgv _ 0 hpos, ne_eq, fin_inj]
    exact (mul_pos ha0 (hyp 0)).ne'
  · rw [hlen] at hi
    have := mul_pos ha0 (hyp i)
    rw [hgv _ i hi, hgv _ i hi, ne_eq, fin_inj, ne_eq, fin_inj]
    constructor <;> intro hh <;> linarith

/-- non-vacuity of C114: a massless free field, and runs of three steps from a state and the state shifted by a constant that stay finite. -/
example (contig ndebug useCheb : Bool) : ∃ (E : Env CR) (P : ParamRec CR) (q : Phys) (x : ℕ → ℝ) (A : ℕ → ℕ → ℕ → ℝ) (g : Grid CR) (e : Eom CR)
    (f₁ f₂ : Field CR) (c : ℝ), Exact E P g q x A ∧ q.Ok ∧ 3 ≤ P.nx ∧ 1 ≤ P.nm ∧ 0 < q.lo ∧ q.lo < q.up ∧ q.up ≤ q.L ∧ q.km1 = 0 ∧ q.k0 ≠ 0 ∧ q.k1 = 0 ∧
    q.k2 = 0 ∧ q.V2 = 0 ∧ q.V3 = 0 ∧ q.V4 = 0 ∧ Eom.Of g P e ∧ f₁.Sized (P.nx * P.nlat * P.nphi) ∧ f₂.Sized (P.nx * P.nlat * P.nphi) ∧ Raised c f₁.n f₂.n ∧
    c ≠ 0 ∧ StaysFinite g e f₁ f₁ 3 ∧ StaysFinite g e f₂ f₁ 3 ∧ (∀ i, i < f₁.n.length → gv f₁.n i ≠ fin (-1) ∧ gv f₂.n i ≠ fin (-1)) := by
  obtain ⟨E, x, A, g, e₁, h, he₁, ho, h0, h1, h2, hk0, hk⟩ := free_exact contig ndebug useCheb
  have hx := h.lagr 0 freeQ.k0 0 0 0 0 0
  obtain ⟨e, _, he⟩ := Eom.Of.exists hx.setup
  have ht := h.setup.total
  have ho' : ({ freeQ with km1 := 0, k0 := freeQ.k0, k1 := 0, k2 := 0, V2 := 0, V3 := 0, V4 := 0 } : Phys).Ok := ⟨ho.1, ho.2, ho.3, ho.4⟩
  obtain ⟨y, hy⟩ : ∃ y : ℕ → ℝ, y = fun i : ℕ => (i : ℝ) + 1 := ⟨_, rfl⟩
  have key := fun y z => C74_small_free_fields_stay_finite hx he ho' h0 h1 h2 hk0 rfl rfl rfl rfl rfl y z 3
  obtain ⟨ε₁, p1, k1⟩ := key y y
  obtain ⟨ε₂, p2, k2⟩ := key (fun i => y i + 1) y
  obtain ⟨a, ha⟩ : ∃ a : ℝ, a = min ε₁ ε₂ / 4 := ⟨_, rfl⟩
  have hm : 0 < min ε₁ ε₂ := lt_min p1 p2
  have m1 := min_le_left ε₁ ε₂
  have m2 := min_le_right ε₁ ε₂
  have ha0 : 0 < a := by rw [ha]; linarith
  obtain ⟨mk, hmkd⟩ : ∃ mk : (ℕ → ℝ) → Field CR, mk = fun w => ⟨"f", tab g.d.total fun i => fin (w i), tab g.d.total fun i => fin (w i),
    tab g.d.total fun i => fin (w i), tab g.d.total fun i => fin (w i), g.d.total⟩ := ⟨_, rfl⟩
  have hmk : ∀ w, (mk w).Sized (freeP.nx * freeP.nlat * freeP.nphi) := fun w => by rw [← ht, hmkd]; simp [Field.Sized]
  have hgv : ∀ (w : ℕ → ℝ) i, i < g.d.total → gv (mk w).n i = fin (w i) := fun w i hi => by rw [hmkd]; exact gv_tab hi
  have hlen : ∀ w, (mk w).n.length = g.d.total := fun w => by rw [hmkd]; simp
  have hyp : ∀ i, 0 < y i := fun i => by rw [hy]; positivity
  refine ⟨E, _, _, x, A, g, e, mk fun i => a * y i, mk fun i => a * (y i + 1), a, hx, ho', ?_, ?_, h0, h1, h2, rfl, hk0, rfl, rfl, rfl, rfl, rfl, he,
    hmk _, hmk _, ⟨by rw [hlen, hlen], fun i hi => ?_⟩, ha0.ne', ?_, ?_, fun i hi => ?_⟩
  · show 3 ≤ freeP.nx; decide
  · show 1 ≤ freeP.nm; decide
  · rw [hlen] at hi
    rw [hgv _ i hi, hgv _ i hi, fin_add, fin_inj]
    ring
  · exact k1 a (by rw [abs_of_pos ha0, ha]; linarith) _ _ (hmk _) (hmk _) (fun i hi => hgv _ i (by rw [ht]; exact hi))
      (fun i hi => hgv _ i (by rw [ht]; exact hi))
  · exact k2 a (by rw [abs_of_pos ha0, ha]; linarith) _ _ (hmk _) (hmk _) (fun i hi => hgv _ i (by rw [ht]; exact hi))
      (fun i hi => hgv _ i (by rw [ht]; exact hi))
  · rw [hlen] at hi
    have := mul_pos ha0 (hyp i)
    rw [hgv _ i hi, hgv _ i hi, ne_eq, fin_inj, ne_eq, fin_inj]
    constructor <;> intro hh <;> nlinarith

end SFK
