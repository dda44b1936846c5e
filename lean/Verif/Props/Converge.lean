import Verif.Props.Spherical
import Verif.Lemmas.RKGlobal
/-
C96: convergence of a whole evolution under refinement of the time step, where the filter does nothing.
-/
namespace SFK
open Scalar CR Kerr Filter Topology

variable {E : Env CR} {P : ParamRec CR} {g : Grid CR} {q : Phys} {x : ℕ → ℝ} {A : ℕ → ℕ → ℕ → ℝ} {e : Eom CR} {n : ℕ}

/-- the vector field is what the slopes are, and only non-singular states have finite slopes -/
theorem slopes_unique (h : Exact E P g q x A) (ho : q.Ok) (h0 : 0 < q.lo) (h1 : q.lo < q.up) (h2 : q.up ≤ q.L)
    (hn : g.d.total = n) {G : State n → State n} (g1 : ∀ s, (G s).1 = s.2)
    (g2 : ∀ s, Nonsing q s → ∀ (τ : CR) (e : Eom CR), Eom.Of g { P with dt := τ } e → e.rhs g (arr s.1) (arr s.2) = arr (G s).2)
    (s d : State n) (hd : ∀ e, Eom.Of g P e → Slopes e g (arr s.1) (arr s.2) (arr d.1) (arr d.2)) : Nonsing q s ∧ d = G s := by
  have hS := h.setup
  obtain ⟨e, _, he⟩ := Eom.Of.exists hS
  have hsl := slopes_rhs hS he (u := arr s.1) (v := arr s.2) (by simp [arr, hn]) (by simp [arr, hn])
  obtain ⟨t, ht, _⟩ := he.eq hS
  obtain ⟨J⟩ : Nonempty (Junk (Cx CR)) := ⟨fun _ _ => ⟨fin 0, fin 0⟩⟩
  have ht' : t.Sized (arr s.1).length := by simp only [arr, List.length_ofFn]; rw [← hn]; exact ht
  obtain ⟨a, ha⟩ := hd e he J t (arr s.1) (arr s.1) ht' rfl rfl
  obtain ⟨b, hb⟩ := hsl J t (arr s.1) (arr s.1) ht' rfl rfl
  rw [ha] at hb
  injection hb with hb
  injection hb with _ hb
  injection hb with h1' h2'
  have hs : Nonsing q s := by
    intro i
    have := (rhs_real h he ho h0 h1 h2 (by rw [hn]; exact arr_isF s.1) (by rw [hn]; exact arr_isF s.2) (i := i) (by rw [hn]; exact i.2)).mp
      ⟨_, by rw [← h2']; exact (arr_isF d.2).2 i i.2⟩
    rwa [extF_val] at this
  refine ⟨hs, Prod.ext ?_ ?_⟩
  · rw [g1]; exact arr_inj h1'
  · rw [g2 s hs P.dt e he] at h2'
    exact arr_inj h2'

theorem Exact.with_dt (h : Exact E P g q x A) (τ : ℝ) : Exact E { P with dt := fin τ } g { q with dt := τ } x A :=
  ⟨⟨⟨h.setup.sized, h.setup.sizes, h.setup.grid⟩, h.setup.orders⟩, h.env, ⟨h.phys.M, h.phys.a, h.phys.L, h.phys.lo, h.phys.up, rfl, h.phys.km1, h.phys.k0, h.phys.k1,
    h.phys.k2, h.phys.V2, h.phys.V3, h.phys.V4⟩, h.lu, h.L0⟩

theorem Phys.Ok.with_dt (ho : q.Ok) (τ : ℝ) : ({ q with dt := τ } : Phys).Ok := ⟨ho.M_pos, ho.spin, ho.noRound, ho.L_pos⟩

section C96
variable (h : Exact E P g q x A) (hnm : 1 ≤ P.nm) (ho : q.Ok) (h0 : 0 < q.lo) (h1 : q.lo < q.up) (h2 : q.up ≤ q.L) (ha : q.a = 0)
include h hnm ho h0 h1 h2 ha

theorem converge_aux (hn : g.d.total = n) {T : ℝ} (hT : 0 ≤ T) {u : ℝ → State n} (hu : SolvesOn g P u T)
    (s1 : Spherical g.d (arr (u 0).1)) (s2 : Spherical g.d (arr (u 0).2)) :
    ∃ (C : ℝ) (N₀ : ℕ), 0 < N₀ ∧ ∀ N : ℕ, N₀ ≤ N → ∀ e : Eom CR, Eom.Of g { P with dt := fin (T / N) } e → ∀ k, k ≤ N → ∃ w : State n,
      evoP e g (arr (u 0).1) (arr (u 0).2) k = (arr w.1, arr w.2) ∧ Spherical g.d (arr w.1) ∧ Spherical g.d (arr w.2) ∧
      ‖w - u (k * (T / N))‖ ≤ C / (N : ℝ) ^ 4 := by
  obtain ⟨G, g1, g2, g3⟩ := vector_field h ho h0 h1 h2 hn
  have hode : ∀ t ∈ Set.Icc 0 T, HasDerivAt u (G (u t)) t ∧ Nonsing q (u t) := by
    intro t ht
    obtain ⟨d, hd, hs⟩ := hu t ht
    obtain ⟨a, b⟩ := slopes_unique h ho h0 h1 h2 hn g1 g2 _ _ hs
    exact ⟨b ▸ hd, a⟩
  obtain ⟨C, N₀, hN0, hC⟩ := rk4_global hT (fun t ht => (hode t ht).1) (fun t ht => g3 _ (hode t ht).2) (W := { s | Nonsing q s })
    (fun t ht => nonsing_eventually (hode t ht).2)
  refine ⟨C, N₀, hN0, fun N hN e he k hk => ⟨(rk4 G (T / N))^[k] (u 0), ?_, ?_, ?_, (hC N hN k hk).1⟩⟩
  all_goals
    have h' := h.with_dt (T / N)
    have hdt : e.dt = fin (T / N) := by
      obtain ⟨t, _, rfl⟩ := he.eq h'.setup
      rfl
    have hsym := sym_spherical h' he hnm (ho.with_dt _) h0 h1 h2 ha
    have hlen : ∀ y : Fin n → ℝ, (arr y).length = g.d.total := fun y => by simp [arr, hn]
    have key : ∀ j, j ≤ N → evoP e g (arr (u 0).1) (arr (u 0).2) j = (arr ((rk4 G (T / N))^[j] (u 0)).1, arr ((rk4 G (T / N))^[j] (u 0)).2) ∧
        Spherical g.d (arr ((rk4 G (T / N))^[j] (u 0)).1) ∧ Spherical g.d (arr ((rk4 G (T / N))^[j] (u 0)).2) := by
      intro j
      induction j with
      | zero => exact fun _ => ⟨rfl, s1, s2⟩
      | succ j ih =>
        intro hj
        obtain ⟨i1, i2, i3⟩ := ih (by omega)
        obtain ⟨w, hw⟩ : ∃ w, w = (rk4 G (T / N))^[j] (u 0) := ⟨_, rfl⟩
        have hst := (hC N hN j (by omega)).2
        rw [← hw] at i1 i2 i3 hst
        have hstep := step_arr hn g1 hdt (s := w) fun r hr => g2 r (hst r hr) (fin (T / N)) e he
        have f1 := spherical_filt h i2 (hlen _) (arr_isF _).allFin
        have f2 := spherical_filt h i3 (hlen _) (arr_isF _).allFin
        have hs := hsym.step hdt (F := fun _ => arr w.1) (Q := fun _ => arr w.2) (fun _ => hlen _) (fun _ => hlen _) i2 i3 (fun _ _ => by
          beta_reduce; rw [hstep]; exact ⟨(arr_isF _).allFin, (arr_isF _).allFin⟩)
        beta_reduce at hs
        rw [hstep] at hs
        rw [Function.iterate_succ_apply', ← hw]
        refine ⟨?_, hs.1, hs.2⟩
        unfold evoP
        rw [i1]
        dsimp only
        rw [f1, f2, hstep]
  · exact (key k hk).1
  · exact (key k hk).2.1
  · exact (key k hk).2.2

/-- C96: around a hole that does not rotate, for spherically symmetric data the whole evolution converges, with fourth order in the time
step, to the exact solution of the equation in time that `set_k` defines: if `u` solves that equation on `[0,T]`, then, with `N` steps of
size `T/N` from the arrays holding `u(0)`, for all sufficiently large `N` the arrays after every number `k≤N` of steps are finite and differ
from `u(kT/N)` by at most `C/N⁴`.  The constants depend on the solution, not on `N`, `k`, the work arrays or the uninitialised memory.
For other data the filter prevents this (`C83_refinement_fails`). -/
theorem C96_converges_fourth_order {T : ℝ} (hT : 0 ≤ T) {u : ℝ → State (P.nx * P.nlat * P.nphi)} (hu : SolvesOn g P u T)
    (s1 : Spherical g.d (arr (u 0).1)) (s2 : Spherical g.d (arr (u 0).2)) :
    ∃ (C : ℝ) (N₀ : ℕ), 0 < N₀ ∧ ∀ N : ℕ, N₀ ≤ N → ∀ (e : Eom CR) (J : ℕ → Junk (Cx CR)) (f p : Field CR), Eom.Of g { P with dt := fin (T / N) } e →
      f.Sized (P.nx * P.nlat * P.nphi) → p.Sized (P.nx * P.nlat * P.nphi) → f.n = arr (u 0).1 → p.n = arr (u 0).2 →
      ∀ k, k ≤ N → ∃ a F Q w, evolve g J e f p k = .ok (a, F, Q) ∧ F.n = arr w.1 ∧ Q.n = arr w.2 ∧ ‖w - u (k * (T / N))‖ ≤ C / (N : ℝ) ^ 4 := by
  obtain ⟨C, N₀, hN0, hC⟩ := converge_aux h hnm ho h0 h1 h2 ha h.setup.total hT hu s1 s2
  refine ⟨C, N₀, hN0, fun N hN e J f p he hf hp e1 e2 k hk => ?_⟩
  obtain ⟨w, w1, _, _, w4⟩ := hC N hN e he k hk
  obtain ⟨s, F, Q, a1, _, _, _, a5, a6⟩ := evolve_eq (h.with_dt (T / N)).setup he J hf hp k
  rw [e1, e2, w1] at a5 a6
  exact ⟨_, F, Q, w, a1, a5, a6, w4⟩

/-- C96: the exact solution keeps the symmetry, for all times of `[0,T]`. -/
theorem C96_solution_symmetric {T : ℝ} (hT : 0 ≤ T) {u : ℝ → State (P.nx * P.nlat * P.nphi)} (hu : SolvesOn g P u T)
    (s1 : Spherical g.d (arr (u 0).1)) (s2 : Spherical g.d (arr (u 0).2)) :
    Spherical g.d (arr (u T).1) ∧ Spherical g.d (arr (u T).2) := by
  have ht := h.setup.total
  obtain ⟨C, N₀, hN0, hC⟩ := converge_aux h hnm ho h0 h1 h2 ha ht hT hu s1 s2
  have lim : Tendsto (fun N : ℕ => C / (N : ℝ) ^ 4) atTop (𝓝 0) :=
    tendsto_const_nhds.div_atTop ((tendsto_pow_atTop (by norm_num)).comp tendsto_natCast_atTop_atTop)
  have ex : ∀ N : ℕ, ∃ w : State (P.nx * P.nlat * P.nphi), N₀ ≤ N → Spherical g.d (arr w.1) ∧ Spherical g.d (arr w.2) ∧ ‖w - u T‖ ≤ C / (N : ℝ) ^ 4 := by
    intro N
    by_cases hN : N₀ ≤ N
    · obtain ⟨e, _, he⟩ := Eom.Of.exists (h.with_dt (T / N)).setup
      obtain ⟨w, _, w2, w3, w4⟩ := hC N hN e he N le_rfl
      have hN1 : (N : ℝ) ≠ 0 := by
        have : 0 < N := by omega
        exact_mod_cast this.ne'
      rw [mul_div_cancel₀ _ hN1] at w4
      exact ⟨w, fun _ => ⟨w2, w3, w4⟩⟩
    · exact ⟨u T, fun hc => absurd hc hN⟩
  choose w hw using ex
  have hlim : Tendsto w atTop (𝓝 (u T)) := by
    rw [tendsto_iff_norm_sub_tendsto_zero]
    refine squeeze_zero' (Eventually.of_forall fun N => norm_nonneg _) ?_ lim
    filter_upwards [eventually_ge_atTop N₀] with N hN
    exact (hw N hN).2.2
  have l1 : ∀ i, Tendsto (fun N => (w N).1 i) atTop (𝓝 ((u T).1 i)) := fun i =>
    ((continuous_apply i).comp continuous_fst).continuousAt.tendsto.comp hlim
  have l2 : ∀ i, Tendsto (fun N => (w N).2 i) atTop (𝓝 ((u T).2 i)) := fun i =>
    ((continuous_apply i).comp continuous_snd).continuousAt.tendsto.comp hlim
  have arr_gv : ∀ (y : Fin (P.nx * P.nlat * P.nphi) → ℝ) (i : Fin (P.nx * P.nlat * P.nphi)), gv (arr y) i.1 = fin (y i) := by
    intro y i
    have := (arr_isF y).2 i.1 i.2
    simpa [extF] using this
  have fin' : ∀ (y : ℕ → Fin (P.nx * P.nlat * P.nphi) → ℝ) (z : Fin (P.nx * P.nlat * P.nphi) → ℝ), (∀ i, Tendsto (fun N => y N i) atTop (𝓝 (z i))) →
      (∀ N, N₀ ≤ N → Spherical g.d (arr (y N))) → Spherical g.d (arr z) := by
    intro y z hy hs
    rw [spherical_iff h]
    intro i j hi hj hij
    rw [ht] at hi hj
    rw [arr_gv z ⟨i, hi⟩, arr_gv z ⟨j, hj⟩, fin_inj]
    refine tendsto_nhds_unique_of_eventuallyEq (hy ⟨i, hi⟩) (hy ⟨j, hj⟩) ?_
    filter_upwards [eventually_ge_atTop N₀] with N hN
    have := (spherical_iff h).mp (hs N hN) i j (by rw [ht]; exact hi) (by rw [ht]; exact hj) hij
    rw [arr_gv _ ⟨i, hi⟩, arr_gv _ ⟨j, hj⟩, fin_inj] at this
    exact this
  exact ⟨fin' _ _ l1 fun N hN => (hw N hN).1, fin' _ _ l2 fun N hN => (hw N hN).2.1⟩

end C96

/-- The free parameters of a hole that does not rotate. -/
noncomputable def stillQ : Phys := { freeQ with a := 0 }
noncomputable def stillP : ParamRec CR := { freeP with bh_spin := fin 0 }

theorem still_exact (contig ndebug useCheb : Bool) : ∃ (E : Env CR) (x : ℕ → ℝ) (A : ℕ → ℕ → ℕ → ℝ) (g : Grid CR),
    Exact E stillP g stillQ x A ∧ stillQ.Ok ∧ 0 < stillQ.lo ∧ stillQ.lo < stillQ.up ∧ stillQ.up ≤ stillQ.L ∧ stillQ.a = 0 ∧
    1 ≤ stillP.nm ∧ stillQ.kin 0 ≠ 0 := by
  obtain ⟨E, x, A, g, e, h1, h2, h3, h4, h5, h6, h7, h8⟩ := free_exact contig ndebug useCheb
  refine ⟨E, x, A, g, ⟨⟨⟨h1.setup.sized, h1.setup.sizes, h1.setup.grid⟩, h1.setup.orders⟩, h1.env,
    ⟨h1.phys.M, rfl, h1.phys.L, h1.phys.lo, h1.phys.up, h1.phys.dt, h1.phys.km1, h1.phys.k0, h1.phys.k1, h1.phys.k2, h1.phys.V2, h1.phys.V3,
      h1.phys.V4⟩, h1.lu, h1.L0⟩, ⟨h3.M_pos, ?_, ?_, h3.L_pos⟩, h4, h5, h6, rfl, by decide, ?_⟩
  · show |(0:ℝ)| ≤ freeQ.M
    rw [abs_zero]; exact h3.M_pos.le
  · refine ⟨Or.inr ?_, Or.inl rfl⟩
    show (1:ℝ) / 10 ^ 16 ≤ abs (freeQ.M - abs (0:ℝ))
    unfold freeQ demoQ
    norm_num
  · unfold Phys.kin Kerr.kin
    simpa [add_comm, stillQ] using h8

/-- Non-vacuity of C95 and C96: on the demonstration grid, for both radial schemes, a solution of the equation over some interval starts
from spherically symmetric arrays with `p` not zero, and the evolutions of C96 exist for every number of steps. -/
example (contig ndebug useCheb : Bool) : ∃ (E : Env CR) (x : ℕ → ℝ) (A : ℕ → ℕ → ℕ → ℝ) (g : Grid CR), Exact E stillP g stillQ x A ∧
    ∃ (T : ℝ) (u : ℝ → State (stillP.nx * stillP.nlat * stillP.nphi)), 0 < T ∧ SolvesOn g stillP u T ∧ u 0 = (0, fun _ => 1) ∧
      Spherical g.d (arr (u 0).1) ∧ Spherical g.d (arr (u 0).2) ∧
      ∀ N : ℕ, ∃ (e : Eom CR) (f p : Field CR), Eom.Of g { stillP with dt := fin (T / N) } e ∧ f.Sized (stillP.nx * stillP.nlat * stillP.nphi) ∧
        p.Sized (stillP.nx * stillP.nlat * stillP.nphi) ∧ f.n = arr (u 0).1 ∧ p.n = arr (u 0).2 := by
  obtain ⟨E, x, A, g, hX, ho, h4, h5, h6, ha, hl, hk⟩ := still_exact contig ndebug useCheb
  have ht := hX.setup.total
  obtain ⟨u, hu0, hu⟩ := C80_solution_exists hX ho h4 h5 h6 (0, fun _ => 1) (fun i => ⟨by norm_num, hk⟩)
  obtain ⟨δ, hδ, hb⟩ := Metric.eventually_nhds_iff.mp hu
  have con : ∀ c : ℝ, Spherical g.d (arr (fun _ : Fin (stillP.nx * stillP.nlat * stillP.nphi) => c)) := by
    intro c
    rw [spherical_iff hX]
    intro i j hi hj _
    rw [ht] at hi hj
    rw [(arr_isF _).2 i hi, (arr_isF _).2 j hj, fin_inj]
    simp only [extF, dif_pos hi, dif_pos hj]
  refine ⟨E, x, A, g, hX, δ / 2, u, by linarith, fun t hm => hb ?_, hu0, ?_, ?_, fun N => ?_⟩
  · rw [Real.dist_eq, sub_zero, abs_of_nonneg hm.1]
    linarith [hm.2]
  · rw [hu0]; exact con 0
  · rw [hu0]; exact con 1
  · obtain ⟨e, _, he⟩ := Eom.Of.exists (hX.with_dt (δ / 2 / N)).setup
    have gen : ∀ (n : ℕ) (y : Fin n → ℝ), ∃ f : Field CR, f.Sized n ∧ f.n = arr y := fun n y =>
      ⟨⟨"", arr y, arr y, arr y, arr y, n⟩, by simp [Field.Sized, arr], rfl⟩
    obtain ⟨f, f1, f2⟩ := gen _ (u 0).1
    obtain ⟨p, p1, p2⟩ := gen _ (u 0).2
    exact ⟨e, f, p, he, f1, p1, f2, p2⟩

end SFK
