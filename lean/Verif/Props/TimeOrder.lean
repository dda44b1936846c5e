import Verif.Lemmas.TimeOrder
import Verif.Props.Symmetry
import Verif.Props.Step
/-
C80: the time integration is fourth-order accurate.
-/
namespace SFK
open Scalar CR Filter Topology Asymptotics

variable {E : Env CR} {P : ParamRec CR} {g : Grid CR} {e : Eom CR} {q : Phys} {x : ℕ → ℝ} {A : ℕ → ℕ → ℕ → ℝ} {n : ℕ}

/-- away from the singularities of the equation -/
def Nonsing (q : Phys) (s : State n) : Prop := ∀ i, s.1 i ≠ -1 ∧ q.kin (s.1 i) ≠ 0

theorem nonsing_eventually {s0 : State n} (h : Nonsing q s0) : ∀ᶠ s in 𝓝 s0, Nonsing q s := by
  unfold Nonsing
  rw [eventually_all]
  intro i
  have c : ContinuousAt (fun s : State n => s.1 i) s0 := ((continuous_apply i).comp continuous_fst).continuousAt
  exact (c.eventually_ne (h i).1).and ((ContinuousAt.comp (f := fun s : State n => s.1 i) (kin_analytic q (h i).1).continuousAt c).eventually_ne (h i).2)

/-- the semi-discrete equation is an analytic vector field -/
theorem vector_field (h : Exact E P g q x A) (ho : q.Ok) (h0 : 0 < q.lo) (h1 : q.lo < q.up) (h2 : q.up ≤ q.L)
    (hn : g.d.total = n) : ∃ G : State n → State n, (∀ s, (G s).1 = s.2) ∧
      (∀ s, Nonsing q s → ∀ (τ : CR) (e : Eom CR), Eom.Of g { P with dt := τ } e → e.rhs g (arr s.1) (arr s.2) = arr (G s).2) ∧
      ∀ s, Nonsing q s → AnalyticAt ℝ G s := by
  subst hn
  obtain ⟨pr, p2r, ph, lap, fl, o⟩ := h.ops
  obtain ⟨X, r1, r2, s1, s2, t, x1, l1, l2, l3, l4, l5, hX⟩ := h.opX_quad
  obtain ⟨e0, _, he0⟩ := Eom.Of.exists h.setup
  have hc := fun i hi => h.coef_fin he0 ho h0 h1 h2 (i := i) hi
  haveI : Nonempty (Coef ℝ) := ⟨⟨0, 0, 0, 0, 0, 0, 0, 0, 0, 0, 0, 0, 0, 0, 0, 0, 0⟩⟩
  choose! c hc using hc
  refine ⟨fun s => (s.2, fun i => pkR q (c i) ⟨extF s.1 i, extF s.2 i, pr (extF s.1) i, 0, pr (extF s.2) i, p2r (extF s.1) i, ph (extF s.1) i,
    pr (ph (extF s.1)) i, lap (extF s.1) i, X (extF s.1) i⟩), fun s => rfl, ?_, ?_⟩
  · intro s hs τ e he
    have hrr : e.rhs g (arr s.1) (arr s.2) = e0.rhs g (arr s.1) (arr s.2) := by
      have hS' : Setup E { P with dt := τ } g := ⟨⟨h.setup.sized, h.setup.sizes, h.setup.grid⟩, h.setup.orders⟩
      obtain ⟨t1, _, rfl⟩ := he.eq hS'
      obtain ⟨t2, _, rfl⟩ := he0.eq h.setup
      rfl
    have hF := arr_isF s.1
    have hQ := arr_isF s.2
    rw [hrr]
    refine IsF.arr (w := fun i => pkR q (c i) ⟨extF s.1 i, extF s.2 i, pr (extF s.1) i, 0, pr (extF s.2) i, p2r (extF s.1) i, ph (extF s.1) i,
      pr (ph (extF s.1)) i, lap (extF s.1) i, X (extF s.1) i⟩) ⟨by simp, fun i hi => ?_⟩
    unfold Eom.rhs
    rw [gv_tab hi, hc i hi, hF.2 i hi, hQ.2 i hi, (o.pr.1 _ _ hF).2 i hi, (o.pr.1 _ _ hQ).2 i hi, (o.p2r.1 _ _ hF).2 i hi, (o.ph.1 _ _ hF).2 i hi,
      (o.pr.1 _ _ (o.ph.1 _ _ hF)).2 i hi, (x1 _ _ hF).2 i hi, (o.lap.1 _ _ hF).2 i hi]
    have := hs ⟨i, hi⟩
    rw [show s.1 ⟨i, hi⟩ = extF s.1 i by simp [extF, hi]] at this
    exact he0.pk_real h.setup h.phys (c i) (j := ⟨extF s.1 i, extF s.2 i, pr (extF s.1) i, 0, pr (extF s.2) i, p2r (extF s.1) i, ph (extF s.1) i,
      pr (ph (extF s.1)) i, lap (extF s.1) i, X (extF s.1) i⟩) this.1 this.2
  · intro s hs
    refine AnalyticAt.prod ((ContinuousLinearMap.snd ℝ _ _).analyticAt s) (analyticAt_pi_iff.mpr fun i => ?_)
    have lid : LinF g.d.total fun u => u := fun a b u w i _ => rfl
    have a1 := lid.analytic (ContinuousLinearMap.fst ℝ _ _) i.2 s
    have a2 := lid.analytic (ContinuousLinearMap.snd ℝ _ _) i.2 s
    have a3 := o.pr.2.1.analytic (ContinuousLinearMap.fst ℝ _ _) i.2 s
    have a4 := o.pr.2.1.analytic (ContinuousLinearMap.snd ℝ _ _) i.2 s
    have a5 := o.p2r.2.1.analytic (ContinuousLinearMap.fst ℝ _ _) i.2 s
    have a6 := o.ph.2.1.analytic (ContinuousLinearMap.fst ℝ _ _) i.2 s
    have a7 := (LinF.comp o.pr.1 o.pr.2.1 o.ph.2.1).analytic (ContinuousLinearMap.fst ℝ _ _) i.2 s
    have a8 := o.lap.2.1.analytic (ContinuousLinearMap.fst ℝ _ _) i.2 s
    have b1 := l1.analytic (ContinuousLinearMap.fst ℝ _ _) i.2 s
    have b2 := l2.analytic (ContinuousLinearMap.fst ℝ _ _) i.2 s
    have b3 := l3.analytic (ContinuousLinearMap.fst ℝ _ _) i.2 s
    have b4 := l4.analytic (ContinuousLinearMap.fst ℝ _ _) i.2 s
    have b5 := l5.analytic (ContinuousLinearMap.fst ℝ _ _) i.2 s
    simp only [ContinuousLinearMap.coe_fst', ContinuousLinearMap.coe_snd'] at a1 a2 a3 a4 a5 a6 a7 a8 b1 b2 b3 b4 b5
    have n1 := hs i
    rw [← extF_val s.1 i] at n1
    have k1 : AnalyticAt ℝ (fun s : State g.d.total => q.kin (extF s.1 i)) s :=
      AnalyticAt.comp (g := q.kin) (f := fun s : State g.d.total => extF s.1 i) (kin_analytic q n1.1) a1
    have k2 : AnalyticAt ℝ (fun s : State g.d.total => deriv q.kin (extF s.1 i)) s :=
      AnalyticAt.comp (g := deriv q.kin) (f := fun s : State g.d.total => extF s.1 i) (kin_analytic q n1.1).deriv a1
    have k3 : AnalyticAt ℝ (fun s : State g.d.total => deriv q.pot (extF s.1 i)) s :=
      AnalyticAt.comp (g := deriv q.pot) (f := fun s : State g.d.total => extF s.1 i) (pot_analytic q _).deriv a1
    have k4 : AnalyticAt ℝ (fun s : State g.d.total => 1 / q.kin (extF s.1 i)) s := analyticAt_const.div k1 n1.2
    have k5 : AnalyticAt ℝ (fun s : State g.d.total => X (extF s.1) i) s := by
      simp only [fun y => hX y i i.2]
      exact ((b1.mul b3).sub (b2.mul b4)).neg.add (b5.pow 2)
    unfold pkR
    dsimp only
    have cs : ∀ v : ℝ, AnalyticAt ℝ (fun _ : State g.d.total => v) s := fun v => analyticAt_const
    have m1 := (((((((cs (c i).p_p).mul a2).add ((cs (c i).p_dr_f).mul a3)).add ((cs (c i).p_dr_p).mul a4)).add ((cs (c i).p_dr_dr_f).mul a5)).add
      ((cs (c i).p_dphi_dr_f).mul a7)).add ((cs (c i).p_lap_f).mul a8))
    have m2 := ((cs (1 / 2)).mul (k2.mul k4)).mul ((((((cs (c i).p_p_p).mul (a2.pow 2)).add (((cs (c i).p_p_dr_f).mul a2).mul a3)).add
      ((cs (c i).p_dr_f_dr_f).mul (a3.pow 2))).add (((cs (c i).p_dr_f_dphi_f).mul a3).mul a6)).add ((cs (c i).p_sphereX_f).mul k5))
    exact (m1.add m2).sub ((cs (c i).pre).mul (k4.mul k3))

theorem ax_arr (u k : Fin n → ℝ) (c : ℝ) : Eom.ax n (arr u) (fin c) (arr k) = arr (u + c • k) := by
  refine IsF.ext (u := extF (u + c • k)) ⟨by simp, fun i hi => ?_⟩ (arr_isF _)
  rw [Eom.ax_gv hi, (arr_isF u).2 i hi, (arr_isF k).2 i hi, fin_mul, fin_add, fin_inj]
  simp [extF, hi]

/-- the step computed by the solver is the Runge-Kutta step of the vector field, when no stage is singular -/
theorem step_arr (hn : g.d.total = n) {G : State n → State n} (hG : ∀ s, (G s).1 = s.2) {τ : ℝ} (hdt : e.dt = fin τ)
    {s : State n} (hr : ∀ r ∈ [s, s + (τ / 2) • G s, s + (τ / 2) • G (s + (τ / 2) • G s), s + τ • G (s + (τ / 2) • G (s + (τ / 2) • G s))],
      e.rhs g (arr r.1) (arr r.2) = arr (G r).2) :
    e.stepF g (arr s.1) (arr s.2) = (arr (rk4 G τ s).1, arr (rk4 G τ s).2) := by
  subst hn
  have hc : (lit (1/2) * e.dt : CR) = fin (τ / 2) := by rw [hdt, fin_lit, fin_mul, fin_inj]; push_cast; ring
  have h6 : (e.dt / 6 : CR) = fin (τ / 6) := by rw [hdt, fin_ofNat', fin_div _ _ (by norm_num)]
  have h3 : (e.dt / 3 : CR) = fin (τ / 3) := by rw [hdt, fin_ofNat', fin_div _ _ (by norm_num)]
  obtain ⟨s2, hs2⟩ : ∃ s2, s2 = s + (τ / 2) • G s := ⟨_, rfl⟩
  obtain ⟨s3, hs3⟩ : ∃ s3, s3 = s + (τ / 2) • G s2 := ⟨_, rfl⟩
  obtain ⟨s4, hs4⟩ : ∃ s4, s4 = s + τ • G s3 := ⟨_, rfl⟩
  rw [← hs2, ← hs3, ← hs4] at hr
  simp only [List.mem_cons, List.not_mem_nil, or_false, forall_eq_or_imp, forall_eq] at hr
  obtain ⟨q1, q2, q3, q4⟩ := hr
  have e2 : e.L2 g (arr s.1) (arr s.2) = (arr s2.1, arr s2.2) := by
    unfold Eom.L2; rw [hc, q1, ax_arr, ax_arr, hs2, Prod.fst_add, Prod.snd_add, Prod.smul_fst, Prod.smul_snd, hG]
  have e3 : e.L3 g (arr s.1) (arr s.2) = (arr s3.1, arr s3.2) := by
    unfold Eom.L3; rw [hc, e2]; dsimp only; rw [q2, ax_arr, ax_arr, hs3, Prod.fst_add, Prod.snd_add, Prod.smul_fst, Prod.smul_snd, hG]
  have e4 : e.L4 g (arr s.1) (arr s.2) = (arr s4.1, arr s4.2) := by
    unfold Eom.L4; rw [hdt, e3]; dsimp only; rw [q3, ax_arr, ax_arr, hs4, Prod.fst_add, Prod.snd_add, Prod.smul_fst, Prod.smul_snd, hG]
  unfold Eom.stepF
  rw [e2, e3, e4]
  dsimp only
  rw [q1, q2, q3, q4, h6, h3]
  simp only [ax_arr]
  unfold rk4
  dsimp only
  rw [← hs2, ← hs3, ← hs4]
  congr 2
  · simp only [Prod.fst_add, Prod.smul_fst, hG]
    module
  · simp only [Prod.snd_add, Prod.smul_snd]
    module

theorem stages_nonsing {G : State n → State n} {s : State n} (hs : Nonsing q s) (hG : ContinuousAt G s) : ∀ᶠ τ in 𝓝 (0:ℝ),
    ∀ r ∈ [s, s + (τ / 2) • G s, s + (τ / 2) • G (s + (τ / 2) • G s), s + τ • G (s + (τ / 2) • G (s + (τ / 2) • G s))], Nonsing q r := by
  have c2 : ContinuousAt (fun τ : ℝ => s + (τ / 2) • G s) 0 := by fun_prop
  have z2 : s + ((0:ℝ) / 2) • G s = s := by simp
  have g2 : ContinuousAt (fun τ : ℝ => G (s + (τ / 2) • G s)) 0 :=
    ContinuousAt.comp (g := G) (f := fun τ : ℝ => s + (τ / 2) • G s) (by rw [z2]; exact hG) c2
  have c3 : ContinuousAt (fun τ : ℝ => s + (τ / 2) • G (s + (τ / 2) • G s)) 0 := by
    have : ContinuousAt (fun τ : ℝ => τ / 2) 0 := by fun_prop
    exact continuousAt_const.add (this.smul g2)
  have z3 : s + ((0:ℝ) / 2) • G (s + ((0:ℝ) / 2) • G s) = s := by simp
  have g3 : ContinuousAt (fun τ : ℝ => G (s + (τ / 2) • G (s + (τ / 2) • G s))) 0 :=
    ContinuousAt.comp (g := G) (f := fun τ : ℝ => s + (τ / 2) • G (s + (τ / 2) • G s)) (by rw [z3]; exact hG) c3
  have c4 : ContinuousAt (fun τ : ℝ => s + τ • G (s + (τ / 2) • G (s + (τ / 2) • G s))) 0 :=
    continuousAt_const.add (continuousAt_id.smul g3)
  have z4 : s + (0:ℝ) • G (s + ((0:ℝ) / 2) • G (s + ((0:ℝ) / 2) • G s)) = s := by simp
  have ev := nonsing_eventually hs
  have v2 := c2.eventually (p := Nonsing q) (by beta_reduce; rw [z2]; exact ev)
  have v3 := c3.eventually (p := Nonsing q) (by beta_reduce; rw [z3]; exact ev)
  have v4 := c4.eventually (p := Nonsing q) (by beta_reduce; rw [z4]; exact ev)
  filter_upwards [v2, v3, v4] with τ w2 w3 w4
  simp only [List.mem_cons, List.not_mem_nil, or_false, forall_eq_or_imp, forall_eq]
  exact ⟨hs, w2, w3, w4⟩

theorem time_order_aux (h : Exact E P g q x A) (ho : q.Ok) (h0 : 0 < q.lo) (h1 : q.lo < q.up) (h2 : q.up ≤ q.L)
    (hn : g.d.total = n) :
    (∀ s0 : State n, Nonsing q s0 → ∃ u : ℝ → State n, u 0 = s0 ∧ SolvesNear g P u) ∧
    ∀ u : ℝ → State n, SolvesNear g P u → ∃ C δ : ℝ, 0 < δ ∧ ∀ τ : ℝ, |τ| < δ →
      ∀ (e : Eom CR) (J : Junk (Cx CR)) (f p : Field CR), Eom.Of g { P with dt := fin τ } e → f.Sized n → p.Sized n →
        g.filter J f.n = .ok (arr (u 0).1) → g.filter J p.n = .ok (arr (u 0).2) →
        ∃ e' f' p' w, e.time_step g J f p = .ok (e', f', p') ∧ f'.np1 = arr w.1 ∧ p'.np1 = arr w.2 ∧ ‖w - u τ‖ ≤ C * |τ| ^ 5 := by
  obtain ⟨G, g1, g2, g3⟩ := vector_field h ho h0 h1 h2 hn
  have hS := h.setup
  have g2' : ∀ s, Nonsing q s → ∀ e, Eom.Of g P e → Slopes e g (arr s.1) (arr s.2) (arr (G s).1) (arr (G s).2) := by
    intro s hs e he
    have := slopes_rhs hS he (u := arr s.1) (v := arr s.2) (by simp [arr, hn]) (by simp [arr, hn])
    rw [g2 s hs P.dt e he] at this
    rw [g1]
    exact this
  have huniq : ∀ s d : State n, (∀ e, Eom.Of g P e → Slopes e g (arr s.1) (arr s.2) (arr d.1) (arr d.2)) → Nonsing q s ∧ d = G s := by
    intro s d hd
    obtain ⟨e, _, he⟩ := Eom.Of.exists hS
    have hsl := slopes_rhs hS he (u := arr s.1) (v := arr s.2) (by simp [arr, hn]) (by simp [arr, hn])
    obtain ⟨t, ht, _⟩ := he.eq hS
    obtain ⟨J⟩ : Nonempty (Junk (Cx CR)) := ⟨fun _ _ => ⟨fin 0, fin 0⟩⟩
    have ht' : t.Sized (arr s.1).length := by simp only [arr, List.length_ofFn]; rw [← hn]; exact ht
    obtain ⟨a, ha⟩ := hd e he J t (arr s.1) (arr s.1) ht' rfl rfl
    obtain ⟨b, hb⟩ := hsl J t (arr s.1) (arr s.1) ht' rfl rfl
    rw [ha] at hb
    injection hb with hb
    injection hb with _ hb
    injection hb with h1' h2'
    have hs : Nonsing q s := by
      intro i
      have := (rhs_real h he ho h0 h1 h2 (by rw [hn]; exact arr_isF s.1) (by rw [hn]; exact arr_isF s.2) (i := i) (by rw [hn]; exact i.2)).mp
        ⟨_, by rw [← h2']; exact (arr_isF d.2).2 i i.2⟩
      rwa [extF_val] at this
    refine ⟨hs, Prod.ext ?_ ?_⟩
    · rw [g1]; exact arr_inj h1'
    · rw [g2 s hs P.dt e he] at h2'
      exact arr_inj h2'
  constructor
  · intro s0 hs0
    obtain ⟨u, hu0, ε, hε, hu⟩ := ContDiffAt.exists_forall_mem_closedBall_exists_eq_forall_mem_Ioo_hasDerivAt₀ (g3 s0 hs0).contDiffAt 0
    refine ⟨u, hu0, ?_⟩
    have hcont : ContinuousAt u 0 := (hu 0 ⟨by linarith, by linarith⟩).continuousAt
    have hev := hcont.eventually (p := Nonsing q) (by rw [hu0]; exact nonsing_eventually hs0)
    filter_upwards [hev, Ioo_mem_nhds (show (0:ℝ) - ε < 0 by linarith) (show 0 < (0:ℝ) + ε by linarith)] with t ht1 ht2
    exact ⟨G (u t), hu t ht2, fun e he => g2' _ ht1 e he⟩
  · intro u hu
    have hode : ∀ᶠ t in 𝓝 (0:ℝ), HasDerivAt u (G (u t)) t := by
      filter_upwards [hu] with t ⟨d, hd, hs⟩
      rw [← (huniq _ _ hs).2]
      exact hd
    obtain ⟨d, _, hs⟩ := hu.self_of_nhds
    have hns := (huniq _ _ hs).1
    have herr := rk4_local_error (g3 _ hns) (u := u) rfl hode
    obtain ⟨C, hC⟩ := herr.bound
    have hst := stages_nonsing hns (g3 _ hns).continuousAt
    obtain ⟨δ, hδ, hall⟩ := Metric.eventually_nhds_iff.mp (hC.and hst)
    refine ⟨C, δ, hδ, fun τ hτ e J f p he hf hp hF hQ => ?_⟩
    obtain ⟨k1, k2⟩ := hall (show dist τ 0 < δ by simpa using hτ)
    have hS' : Setup E { P with dt := fin τ } g := ⟨⟨hS.sized, hS.sizes, hS.grid⟩, hS.orders⟩
    have hdt : e.dt = fin τ := by
      obtain ⟨t, _, rfl⟩ := he.eq hS'
      rfl
    rw [← hn] at hf hp
    rw [hS.wf.filter_eq J hf.1] at hF
    rw [hS.wf.filter_eq J hp.1] at hQ
    have e1 : g.filtP f.n = arr (u 0).1 := by injection hF
    have e2 : g.filtP p.n = arr (u 0).2 := by injection hQ
    have hst := step_arr hn g1 hdt (s := u 0) fun r hr => g2 r (k2 r hr) (fin τ) e he
    have key := Eom.time_step_eq hS.wf (he.wf hS') J hf hp
    dsimp only at key
    rw [e1, e2, hst] at key
    refine ⟨_, _, _, rk4 G τ (u 0), key, rfl, rfl, ?_⟩
    simpa using k1

section C80
variable (h : Exact E P g q x A) (ho : q.Ok) (h0 : 0 < q.lo) (h1 : q.lo < q.up) (h2 : q.up ≤ q.L)
include h ho h0 h1 h2

/-- C80: the equation in time has a solution through every state whose field values are neither the pole `-1` nor zeros of the kinetic
prefactor. -/
theorem C80_solution_exists (s0 : State (P.nx * P.nlat * P.nphi)) (hs : ∀ i, s0.1 i ≠ -1 ∧ q.kin (s0.1 i) ≠ 0) :
    ∃ u : ℝ → State (P.nx * P.nlat * P.nphi), u 0 = s0 ∧ SolvesNear g P u :=
  (time_order_aux h ho h0 h1 h2 h.setup.total).1 s0 hs

/-- C80: one time step of size `τ` differs from the exact solution, over the time `τ`, of the equation `set_k` defines, started from the
filtered state, by at most `C |τ|⁵`: the integrator is of fourth order.  The constant depends on the solution but not on `τ`, the work
arrays, the uninitialised memory or the other levels of the fields. -/
theorem C80_fourth_order {u : ℝ → State (P.nx * P.nlat * P.nphi)} (hu : SolvesNear g P u) : ∃ C δ : ℝ, 0 < δ ∧ ∀ τ : ℝ, |τ| < δ →
    ∀ (e : Eom CR) (J : Junk (Cx CR)) (f p : Field CR), Eom.Of g { P with dt := fin τ } e →
      f.Sized (P.nx * P.nlat * P.nphi) → p.Sized (P.nx * P.nlat * P.nphi) →
      g.filter J f.n = .ok (arr (u 0).1) → g.filter J p.n = .ok (arr (u 0).2) →
      ∃ e' f' p' w, e.time_step g J f p = .ok (e', f', p') ∧ f'.np1 = arr w.1 ∧ p'.np1 = arr w.2 ∧ ‖w - u τ‖ ≤ C * |τ| ^ 5 :=
  (time_order_aux h ho h0 h1 h2 h.setup.total).2 u hu

end C80

/-- Finite arrays of the right size have a finite filtered array. -/
theorem Exact.filter_arr (h : Exact E P g q x A) (y : Fin (P.nx * P.nlat * P.nphi) → ℝ) :
    ∃ z : Fin (P.nx * P.nlat * P.nphi) → ℝ, ∀ J, g.filter J (arr y) = .ok (arr z) := by
  obtain ⟨pr, p2r, ph, lap, fl, o⟩ := h.ops
  have ht := h.setup.total
  refine ⟨fun i => fl (extF y) i, fun J => ?_⟩
  rw [h.setup.wf.filter_eq J (by simp [arr, ht])]
  congr 1
  have := o.fl.1 (arr y) (extF y) (by rw [ht]; exact arr_isF y)
  rw [ht] at this
  exact this.arr

theorem Exact.filter_arr_zero (h : Exact E P g q x A) (J : Junk (Cx CR)) :
    g.filter J (arr (0 : Fin (P.nx * P.nlat * P.nphi) → ℝ)) = .ok (arr (0 : Fin (P.nx * P.nlat * P.nphi) → ℝ)) := by
  obtain ⟨pr, p2r, ph, lap, fl, o⟩ := h.ops
  have ht := h.setup.total
  rw [h.setup.wf.filter_eq J (by simp [arr, ht])]
  congr 1
  have h0 : ∀ n, IsF n (arr (0 : Fin n → ℝ)) fun _ => 0 := fun n => (arr_isF _).congr fun i hi => by simp [extF]
  have := lin_zero o.fl.1 o.fl.2.1 (v := arr (0 : Fin (P.nx * P.nlat * P.nphi) → ℝ)) (by rw [ht]; exact h0 _)
  rw [ht] at this
  exact this.ext (h0 _)

/-- Non-vacuity: on the demonstration grid, for both radial schemes, for any finite `p` there are field values such that
a solution passes through the filtered arrays; one step from them is covered by the bound. -/
example (contig ndebug useCheb : Bool) : ∃ (E : Env CR) (x : ℕ → ℝ) (A : ℕ → ℕ → ℕ → ℝ) (g : Grid CR), Exact E freeP g freeQ x A ∧
    ∀ z : Fin (freeP.nx * freeP.nlat * freeP.nphi) → ℝ, ∃ (y : Fin (freeP.nx * freeP.nlat * freeP.nphi) → ℝ) (u : ℝ → State (freeP.nx * freeP.nlat * freeP.nphi)),
      SolvesNear g freeP u ∧ (∀ J, g.filter J (arr y) = .ok (arr (u 0).1)) ∧ (∀ J, g.filter J (arr z) = .ok (arr (u 0).2)) ∧
      ∃ C δ : ℝ, 0 < δ ∧ ∀ τ : ℝ, |τ| < δ → ∀ (e : Eom CR) (J : Junk (Cx CR)) (f p : Field CR), Eom.Of g { freeP with dt := fin τ } e →
        f.Sized (freeP.nx * freeP.nlat * freeP.nphi) → p.Sized (freeP.nx * freeP.nlat * freeP.nphi) → f.n = arr y → p.n = arr z →
        ∃ e' f' p' w, e.time_step g J f p = .ok (e', f', p') ∧ f'.np1 = arr w.1 ∧ p'.np1 = arr w.2 ∧ ‖w - u τ‖ ≤ C * |τ| ^ 5 := by
  obtain ⟨E, x, A, g, e, h1, h2, h3, h4, h5, h6, h7, h8⟩ := free_exact contig ndebug useCheb
  refine ⟨E, x, A, g, h1, fun z => ?_⟩
  have hf0 := h1.filter_arr_zero
  obtain ⟨z', hz'⟩ := h1.filter_arr z
  obtain ⟨u, hu0, hu⟩ := C80_solution_exists h1 h3 h4 h5 h6 (0, z') (fun i => ⟨by norm_num, by
    show freeQ.kin 0 ≠ 0
    unfold Phys.kin Kerr.kin
    simpa [add_comm] using h8⟩)
  have a1 : (u 0).1 = 0 := by rw [hu0]
  have a2 : (u 0).2 = z' := by rw [hu0]
  obtain ⟨C, δ, hδ, hC⟩ := C80_fourth_order h1 h3 h4 h5 h6 hu
  refine ⟨0, u, hu, by rw [a1]; exact hf0, by rw [a2]; exact hz', C, δ, hδ, fun τ hτ e J f p he hf hp e1 e2 => ?_⟩
  exact hC τ hτ e J f p he hf hp (by rw [a1, e1]; exact hf0 J) (by rw [a2, e2]; exact hz' J)

end SFK
