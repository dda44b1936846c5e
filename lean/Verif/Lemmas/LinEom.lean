import Verif.Lemmas.LinGrid
import Verif.Lemmas.CR
/-
Several time steps in closed form, and the preservation of a relation between several runs.
-/
namespace SFK
open Scalar CR

section evo
variable {α : Type} [Scalar α] {E : Env α} {P : ParamRec α} {g : Grid α} {e : Eom α}

/-- the state after `N` steps -/
noncomputable def evoP (e : Eom α) (g : Grid α) (F Q : List α) : ℕ → List α × List α
  | 0 => (F, Q)
  | N + 1 => e.stepF g (g.filtP (evoP e g F Q N).1) (g.filtP (evoP e g F Q N).2)

theorem evoP_len {F Q : List α} (hF : F.length = g.d.total) (hQ : Q.length = g.d.total) (N : ℕ) :
    (evoP e g F Q N).1.length = g.d.total ∧ (evoP e g F Q N).2.length = g.d.total := by
  cases N with
  | zero => exact ⟨hF, hQ⟩
  | succ N => exact ⟨by simp [evoP], by simp [evoP]⟩

theorem evolve_eq (hS : Setup E P g) (he : Eom.Of g P e) (J : ℕ → Junk (Cx α)) {f p : Field α}
    (hf : f.Sized (P.nx * P.nlat * P.nphi)) (hp : p.Sized (P.nx * P.nlat * P.nphi)) (N : ℕ) :
    ∃ s f' p', evolve g J e f p N = .ok ({ e with scr := s }, f', p') ∧ Eom.Of g P { e with scr := s } ∧
      f'.Sized (P.nx * P.nlat * P.nphi) ∧ p'.Sized (P.nx * P.nlat * P.nphi) ∧ f'.n = (evoP e g f.n p.n N).1 ∧ p'.n = (evoP e g f.n p.n N).2 := by
  have ht := hS.total
  rw [← ht] at hf hp ⊢
  induction N with
  | zero => exact ⟨e.scr, f, p, rfl, he, hf, hp, rfl, rfl⟩
  | succ N ih =>
    obtain ⟨s, f', p', h1, h2, h3, h4, h5, h6⟩ := ih
    have h7 := Eom.time_step_eq hS.wf (h2.wf hS) (J N) h3 h4
    dsimp only at h7
    obtain ⟨s1, f1, p1, k1, k2, k3, k4, k5, k6⟩ : ∃ s1 f1 p1, Eom.time_step { e with scr := s } g (J N) f' p' = .ok ({ e with scr := s1 }, f1, p1) ∧
        Eom.Of g P { e with scr := s1 } ∧ f1.Sized g.d.total ∧ p1.Sized g.d.total ∧
        f1.np1 = (evoP e g f.n p.n (N + 1)).1 ∧ p1.np1 = (evoP e g f.n p.n (N + 1)).2 := by
      refine ⟨_, _, _, h7, he.scr (by rw [← ht]; exact Eom.scrP_ok _ _), ⟨by simp, by simp, by simp, by simp, h3.2.2.2.2⟩,
        ⟨by simp, by simp, by simp, by simp, h4.2.2.2.2⟩, ?_, ?_⟩
      · show (Eom.stepF _ g _ _).1 = _
        rw [h5, h6]; rfl
      · show (Eom.stepF _ g _ _).2 = _
        rw [h5, h6]; rfl
    refine ⟨s1, { f1 with n := f1.np1 }, { p1 with n := p1.np1 }, ?_, k2, ⟨k3.2.2.1, k3.2.1, k3.2.2.1, k3.2.2.2.1, k3.2.2.2.2⟩,
      ⟨k4.2.2.1, k4.2.1, k4.2.2.1, k4.2.2.2.1, k4.2.2.2.2⟩, k5, k6⟩
    unfold evolve
    rw [h1, ok_bind]
    dsimp only
    rw [k1, ok_bind]
    dsimp only
    rw [Field.shift_eq (k3.1.trans k3.2.2.2.2.symm) (k3.2.2.1.trans k3.2.2.2.2.symm), ok_bind,
      Field.shift_eq (k4.1.trans k4.2.2.2.2.symm) (k4.2.2.1.trans k4.2.2.2.2.symm), ok_bind]

end evo

section fin
variable {g : Grid CR} {e : Eom CR} {n : ℕ}

theorem allFin_iff {v : List CR} (hv : v.length = n) : AllFin v ↔ ∀ i, i < n → ∃ r : ℝ, gv v i = fin r := by
  subst hv
  constructor
  · intro h i hi
    refine h _ ?_
    unfold gv
    rw [List.getElem?_eq_getElem hi]
    exact List.getElem_mem hi
  · intro h y hy
    obtain ⟨i, hi, rfl⟩ := List.mem_iff_getElem.mp hy
    obtain ⟨r, hr⟩ := h i hi
    refine ⟨r, ?_⟩
    unfold gv at hr
    rw [List.getElem?_eq_getElem hi] at hr
    exact hr

theorem AllFin.isF {v : List CR} (hv : v.length = n) (h : AllFin v) : ∃ u, IsF n v u := by
  have := (allFin_iff hv).mp h
  choose! u hu using this
  exact ⟨u, hv, hu⟩

theorem IsF.allFin {v : List CR} {u : ℕ → ℝ} (h : IsF n v u) : AllFin v :=
  (allFin_iff h.1).mpr fun i hi => ⟨u i, h.2 i hi⟩

theorem ax_fin {u k : List CR} {c : CR} (hu : u.length = n) (hk : k.length = n) (h : AllFin (Eom.ax n u c k)) : AllFin u ∧ AllFin k := by
  rw [allFin_iff (n := n) (by simp)] at h
  constructor
  · rw [allFin_iff hu]
    intro i hi
    obtain ⟨r, hr⟩ := h i hi
    rw [Eom.ax_gv hi] at hr
    obtain ⟨a, b, h1, _⟩ := add_fin hr
    exact ⟨a, h1⟩
  · rw [allFin_iff hk]
    intro i hi
    obtain ⟨r, hr⟩ := h i hi
    rw [Eom.ax_gv hi] at hr
    obtain ⟨a, b, h1, h2, _⟩ := add_fin hr
    obtain ⟨a', b', _, h4, _⟩ := mul_fin h2
    exact ⟨b', h4⟩

theorem fin_ax {u k : List CR} {c : ℝ} (hu : u.length = n) (hk : k.length = n) (h1 : AllFin u) (h2 : AllFin k) :
    AllFin (Eom.ax n u (fin c) k) := by
  rw [allFin_iff (n := n) (by simp)]
  intro i hi
  obtain ⟨a, ha⟩ := (allFin_iff hu).mp h1 i hi
  obtain ⟨b, hb⟩ := (allFin_iff hk).mp h2 i hi
  exact ⟨a + c * b, by rw [Eom.ax_gv hi, ha, hb, fin_mul, fin_add]⟩

/-- everything in a step with a finite result is finite -/
theorem step_fin {F Q : List CR} {τ : ℝ} (hdt : e.dt = fin τ) (hF : F.length = g.d.total) (hQ : Q.length = g.d.total)
    (h1 : AllFin (e.stepF g F Q).1) (h2 : AllFin (e.stepF g F Q).2) :
    (AllFin F ∧ AllFin Q ∧ AllFin (e.rhs g F Q)) ∧ (AllFin (e.L2 g F Q).1 ∧ AllFin (e.L2 g F Q).2 ∧ AllFin (e.rhs g (e.L2 g F Q).1 (e.L2 g F Q).2)) ∧
    (AllFin (e.L3 g F Q).1 ∧ AllFin (e.L3 g F Q).2 ∧ AllFin (e.rhs g (e.L3 g F Q).1 (e.L3 g F Q).2)) ∧
    (AllFin (e.L4 g F Q).1 ∧ AllFin (e.L4 g F Q).2 ∧ AllFin (e.rhs g (e.L4 g F Q).1 (e.L4 g F Q).2)) := by
  unfold Eom.stepF at h1 h2
  obtain ⟨a3, f4⟩ := ax_fin (by simp) (by simp) h1
  obtain ⟨a2, f3⟩ := ax_fin (by simp) (by simp) a3
  obtain ⟨a1, f2⟩ := ax_fin (by simp) (by simp) a2
  obtain ⟨a0, _⟩ := ax_fin hF hQ a1
  obtain ⟨b3, r4⟩ := ax_fin (by simp) (by simp) h2
  obtain ⟨b2, r3⟩ := ax_fin (by simp) (by simp) b3
  obtain ⟨b1, r2⟩ := ax_fin (by simp) (by simp) b2
  obtain ⟨b0, r1⟩ := ax_fin hQ (by simp) b1
  have hc : (lit (1/2) * e.dt : CR) = fin (((1/2 : ℚ) : ℝ) * τ) := by rw [hdt, fin_lit, fin_mul]
  refine ⟨⟨a0, b0, r1⟩, ⟨?_, f2, r2⟩, ⟨?_, f3, r3⟩, ?_, f4, r4⟩
  · unfold Eom.L2
    rw [hc]
    exact fin_ax hF hQ a0 b0
  · unfold Eom.L3
    rw [hc]
    exact fin_ax hF (by simp) a0 f2
  · unfold Eom.L4
    rw [hdt]
    exact fin_ax hF (by simp) a0 f3

/-- A relation between several runs that filter, right-hand side and linear combinations preserve; the runs in `S` are known to be
finite. -/
structure Sym (e : Eom CR) (g : Grid CR) {ι : Type} (S : ι → Prop) (Rel : (ι → List CR) → Prop) : Prop where
  ax : ∀ (u k : ι → List CR) (c : ℝ), Rel u → Rel k → Rel fun r => Eom.ax g.d.total (u r) (fin c) (k r)
  filt : ∀ u : ι → List CR, (∀ r, (u r).length = g.d.total) → (∀ r, S r → AllFin (u r)) → Rel u → Rel fun r => g.filtP (u r)
  rhs : ∀ u w : ι → List CR, (∀ r, (u r).length = g.d.total) → (∀ r, (w r).length = g.d.total) → (∀ r, S r → AllFin (u r)) →
    (∀ r, S r → AllFin (w r)) → (∀ r, S r → AllFin (e.rhs g (u r) (w r))) → Rel u → Rel w → Rel fun r => e.rhs g (u r) (w r)

namespace Sym
variable {ι : Type} {S : ι → Prop} {Rel : (ι → List CR) → Prop}

theorem step' (hax : ∀ (u k : ι → List CR) (c : ℝ), Rel u → Rel k → Rel fun r => Eom.ax g.d.total (u r) (fin c) (k r))
    (hrhs : ∀ u w : ι → List CR, (∀ r, (u r).length = g.d.total) → (∀ r, (w r).length = g.d.total) → (∀ r, S r → AllFin (u r)) →
    (∀ r, S r → AllFin (w r)) → (∀ r, S r → AllFin (e.rhs g (u r) (w r))) → Rel u → Rel w → Rel fun r => e.rhs g (u r) (w r))
    {τ : ℝ} (hdt : e.dt = fin τ) {F Q : ι → List CR} (hF : ∀ r, (F r).length = g.d.total)
    (hQ : ∀ r, (Q r).length = g.d.total) (rF : Rel F) (rQ : Rel Q)
    (h1 : ∀ r, S r → AllFin (e.stepF g (F r) (Q r)).1 ∧ AllFin (e.stepF g (F r) (Q r)).2) :
    Rel (fun r => (e.stepF g (F r) (Q r)).1) ∧ Rel (fun r => (e.stepF g (F r) (Q r)).2) := by
  have hk := fun r hr => step_fin hdt (hF r) (hQ r) (h1 r hr).1 (h1 r hr).2
  have hc : (lit (1/2) * e.dt : CR) = fin (((1/2 : ℚ) : ℝ) * τ) := by rw [hdt, fin_lit, fin_mul]
  have h6 : (e.dt / 6 : CR) = fin (τ / 6) := by rw [hdt, fin_ofNat', fin_div _ _ (by norm_num)]
  have h3 : (e.dt / 3 : CR) = fin (τ / 3) := by rw [hdt, fin_ofNat', fin_div _ _ (by norm_num)]
  have s1 := hrhs F Q hF hQ (fun r hr => (hk r hr).1.1) (fun r hr => (hk r hr).1.2.1) (fun r hr => (hk r hr).1.2.2) rF rQ
  have a2 := hax F Q (((1/2 : ℚ) : ℝ) * τ) rF rQ
  have b2 := hax Q _ (((1/2 : ℚ) : ℝ) * τ) rQ s1
  rw [← hc] at a2 b2
  have s2 := hrhs (fun r => (e.L2 g (F r) (Q r)).1) (fun r => (e.L2 g (F r) (Q r)).2) (by simp) (by simp)
    (fun r hr => (hk r hr).2.1.1) (fun r hr => (hk r hr).2.1.2.1) (fun r hr => (hk r hr).2.1.2.2) a2 b2
  have a3 := hax F (fun r => (e.L2 g (F r) (Q r)).2) (((1/2 : ℚ) : ℝ) * τ) rF b2
  have b3 := hax Q _ (((1/2 : ℚ) : ℝ) * τ) rQ s2
  rw [← hc] at a3 b3
  have s3 := hrhs (fun r => (e.L3 g (F r) (Q r)).1) (fun r => (e.L3 g (F r) (Q r)).2) (by simp) (by simp)
    (fun r hr => (hk r hr).2.2.1.1) (fun r hr => (hk r hr).2.2.1.2.1) (fun r hr => (hk r hr).2.2.1.2.2) a3 b3
  have a4 := hax F (fun r => (e.L3 g (F r) (Q r)).2) τ rF b3
  have b4 := hax Q _ τ rQ s3
  rw [← hdt] at a4 b4
  have s4 := hrhs (fun r => (e.L4 g (F r) (Q r)).1) (fun r => (e.L4 g (F r) (Q r)).2) (by simp) (by simp)
    (fun r hr => (hk r hr).2.2.2.1) (fun r hr => (hk r hr).2.2.2.2.1) (fun r hr => (hk r hr).2.2.2.2.2) a4 b4
  unfold Eom.stepF
  rw [h6, h3]
  exact ⟨hax _ _ _ (hax _ _ _ (hax _ _ _ (hax _ _ _ rF rQ) b2) b3) b4,
    hax _ _ _ (hax _ _ _ (hax _ _ _ (hax _ _ _ rQ s1) s2) s3) s4⟩

theorem step (h : Sym e g S Rel) {τ : ℝ} (hdt : e.dt = fin τ) {F Q : ι → List CR} (hF : ∀ r, (F r).length = g.d.total)
    (hQ : ∀ r, (Q r).length = g.d.total) (rF : Rel F) (rQ : Rel Q)
    (h1 : ∀ r, S r → AllFin (e.stepF g (F r) (Q r)).1 ∧ AllFin (e.stepF g (F r) (Q r)).2) :
    Rel (fun r => (e.stepF g (F r) (Q r)).1) ∧ Rel (fun r => (e.stepF g (F r) (Q r)).2) := step' h.ax h.rhs hdt hF hQ rF rQ h1

theorem evo (h : Sym e g S Rel) {τ : ℝ} (hdt : e.dt = fin τ) {F Q : ι → List CR} (hF : ∀ r, (F r).length = g.d.total)
    (hQ : ∀ r, (Q r).length = g.d.total) (rF : Rel F) (rQ : Rel Q) (N : ℕ)
    (h1 : ∀ r, S r → ∀ j, j ≤ N → AllFin (evoP e g (F r) (Q r) j).1 ∧ AllFin (evoP e g (F r) (Q r) j).2) :
    Rel (fun r => (evoP e g (F r) (Q r) N).1) ∧ Rel (fun r => (evoP e g (F r) (Q r) N).2) := by
  induction N with
  | zero => exact ⟨rF, rQ⟩
  | succ N ih =>
    obtain ⟨i1, i2⟩ := ih fun r hr j hj => h1 r hr j (by omega)
    have l := fun r => evoP_len (e := e) (hF r) (hQ r) N
    refine h.step hdt (F := fun r => g.filtP (evoP e g (F r) (Q r) N).1) (Q := fun r => g.filtP (evoP e g (F r) (Q r) N).2) (by simp) (by simp)
      (h.filt _ (fun r => (l r).1) (fun r hr => (h1 r hr N (by omega)).1) i1)
      (h.filt _ (fun r => (l r).2) (fun r hr => (h1 r hr N (by omega)).2) i2) (fun r hr => h1 r hr (N + 1) (le_refl _))

end Sym

theorem pown_fin {c : CR} {k : ℕ} {y : ℝ} (h : (pown c k : CR) = fin y) : ∃ a, c = fin a ∧ y = a ^ k := by
  cases c with
  | bad => cases h
  | fin a => exact ⟨a, rfl, by simpa [eq_comm] using h⟩

/-- The right-hand side at a point, when it is finite: everything that enters is finite, and its value. -/
theorem pk_fin {c : Coef CR} {f p r vr rr ph rph X lap : CR} {y : ℝ} (h : e.pk c f p r vr rr ph rph X lap = fin y) :
    ∃ (cc : Coef ℝ) (kp ik vp f' p' r' vr' rr' ph' rph' X' lap' : ℝ),
      (c.p_p = fin cc.p_p ∧ c.p_dr_f = fin cc.p_dr_f ∧ c.p_dr_p = fin cc.p_dr_p ∧ c.p_dr_dr_f = fin cc.p_dr_dr_f ∧
        c.p_dphi_dr_f = fin cc.p_dphi_dr_f ∧ c.p_lap_f = fin cc.p_lap_f ∧ c.p_p_p = fin cc.p_p_p ∧ c.p_p_dr_f = fin cc.p_p_dr_f ∧
        c.p_dr_f_dr_f = fin cc.p_dr_f_dr_f ∧ c.p_dr_f_dphi_f = fin cc.p_dr_f_dphi_f ∧ c.p_sphereX_f = fin cc.p_sphereX_f ∧
        c.pre = fin cc.pre) ∧
      (e.kprime f = fin kp ∧ e.inverseK f = fin ik ∧ e.vprime f = fin vp) ∧
      (p = fin p' ∧ r = fin r' ∧ vr = fin vr' ∧ rr = fin rr' ∧ ph = fin ph' ∧ rph = fin rph' ∧ X = fin X' ∧ lap = fin lap' ∧ f = fin f') ∧
      y = cc.p_p * p' + cc.p_dr_f * r' + cc.p_dr_p * vr' + cc.p_dr_dr_f * rr' + cc.p_dphi_dr_f * rph' + cc.p_lap_f * lap'
        + 1 / 2 * (kp * ik) * (cc.p_p_p * p' ^ 2 + cc.p_p_dr_f * p' * r' + cc.p_dr_f_dr_f * r' ^ 2 + cc.p_dr_f_dphi_f * r' * ph'
          + cc.p_sphereX_f * X') - cc.pre * vp := by
  unfold Eom.pk at h
  obtain ⟨_, _, z1, hv, rfl⟩ := sub_fin h
  obtain ⟨c12, vp, e12, hvp, rfl⟩ := mul_fin hv
  obtain ⟨_, _, z2, hk, rfl⟩ := add_fin z1
  obtain ⟨_, _, z3, h6, rfl⟩ := add_fin z2
  obtain ⟨_, _, z4, h5, rfl⟩ := add_fin z3
  obtain ⟨_, _, z5, h4, rfl⟩ := add_fin z4
  obtain ⟨_, _, z6, h3, rfl⟩ := add_fin z5
  obtain ⟨_, _, h1, h2, rfl⟩ := add_fin z6
  obtain ⟨c1, p', e1, rfl, rfl⟩ := mul_fin h1
  obtain ⟨c2, r', e2, rfl, rfl⟩ := mul_fin h2
  obtain ⟨c3, vr', e3, rfl, rfl⟩ := mul_fin h3
  obtain ⟨c4, rr', e4, rfl, rfl⟩ := mul_fin h4
  obtain ⟨c5, rph', e5, rfl, rfl⟩ := mul_fin h5
  obtain ⟨c6, lap', e6, rfl, rfl⟩ := mul_fin h6
  obtain ⟨_, _, hk1, hk2, rfl⟩ := mul_fin hk
  obtain ⟨_, _, hh, hk3, rfl⟩ := mul_fin hk1
  obtain ⟨kp, ik, hkp, hik, rfl⟩ := mul_fin hk3
  obtain ⟨_, _, y1, g5, rfl⟩ := add_fin hk2
  obtain ⟨_, _, y2, g4, rfl⟩ := add_fin y1
  obtain ⟨_, _, y3, g3, rfl⟩ := add_fin y2
  obtain ⟨_, _, g1, g2, rfl⟩ := add_fin y3
  obtain ⟨c7, _, e7, x1, rfl⟩ := mul_fin g1
  obtain ⟨_, _, w2, x2', rfl⟩ := mul_fin g2
  obtain ⟨c8, _, e8, x2, rfl⟩ := mul_fin w2
  obtain ⟨c9, _, e9, x3, rfl⟩ := mul_fin g3
  obtain ⟨_, ph', w4, rfl, rfl⟩ := mul_fin g4
  obtain ⟨c10, _, e10, x4, rfl⟩ := mul_fin w4
  obtain ⟨c11, X', e11, rfl, rfl⟩ := mul_fin g5
  rw [fin_pown, fin_inj] at x1 x3
  rw [fin_inj] at x2 x2' x4
  subst x1 x2 x2' x3 x4
  have hf : ∃ f', f = fin f' := by
    unfold Eom.kprime at hkp
    obtain ⟨_, _, _, hq, _⟩ := add_fin hkp
    obtain ⟨_, f', _, hq, _⟩ := mul_fin hq
    exact ⟨f', hq⟩
  obtain ⟨f', rfl⟩ := hf
  rw [fin_lit, fin_inj] at hh
  refine ⟨⟨c12, c1, c2, c3, c4, c5, c6, c7, c8, c9, c10, c11, 0, 0, 0, 0, 0⟩, kp, ik, vp, f', _, _, vr', rr', ph', rph', X', lap',
    ⟨e1, e2, e3, e4, e5, e6, e7, e8, e9, e10, e11, e12⟩, ⟨hkp, hik, hvp⟩, ⟨rfl, rfl, rfl, rfl, rfl, rfl, rfl, rfl, rfl⟩, ?_⟩
  rw [← hh]
  push_cast
  ring

end fin
end SFK
