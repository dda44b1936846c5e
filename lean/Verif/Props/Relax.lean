import Verif.Props.Converge
import Verif.Lemmas.FilterLin
/-
C97: what refining the time step converges to.
-/
namespace SFK
open Scalar CR Kerr Filter Topology

variable {E : Env CR} {P : ParamRec CR} {g : Grid CR} {q : Phys} {x : ℕ → ℝ} {A : ℕ → ℕ → ℕ → ℝ} {e : Eom CR} {n : ℕ}

section
variable {D Q : State n →L[ℝ] State n} {M r : ℝ}

theorem filterSeq_iff (h : Exact E P g q x A) (hn : g.d.total = n) (hD : ∀ s, g.filtP (arr s.1) = arr (D s).1 ∧ g.filtP (arr s.2) = arr (D s).2)
    (s : State n) (w : ℕ → State n) : FilterSeq g s w ↔ ∀ j, w j = (D ^ j) s := by
  have hlen : ∀ y : Fin n → ℝ, (arr y).length = g.d.total := fun y => by simp [arr, hn]
  have one : ∀ a b : State n, Filtered g a b ↔ b = D a := by
    intro a b
    unfold Filtered
    constructor
    · intro hf
      obtain ⟨J⟩ : Nonempty (Junk (Cx CR)) := ⟨fun _ _ => ⟨fin 0, fin 0⟩⟩
      have := hf J
      rw [h.setup.wf.filter_eq J (hlen a.1), h.setup.wf.filter_eq J (hlen a.2), (hD a).1, (hD a).2] at this
      obtain ⟨i1, i2⟩ := this
      injection i1 with i1
      injection i2 with i2
      exact Prod.ext (arr_inj i1).symm (arr_inj i2).symm
    · rintro rfl J
      rw [h.setup.wf.filter_eq J (hlen a.1), h.setup.wf.filter_eq J (hlen a.2), (hD a).1, (hD a).2]
      exact ⟨rfl, rfl⟩
  unfold FilterSeq
  simp only [one]
  constructor
  · rintro ⟨a, b⟩ j
    induction j with
    | zero => rw [a, pow_zero]; rfl
    | succ j ih => rw [b, ih, pow_succ', mul_apply_eq_comp]
  · intro hw
    refine ⟨by rw [hw, pow_zero]; rfl, fun j => by rw [hw, hw, pow_succ', mul_apply_eq_comp]⟩

theorem pow_tendsto (r0 : 0 < r) (r1 : r < 1) (hM : ∀ k, ‖D ^ k - Q‖ ≤ M * r ^ k) (s : State n) : Tendsto (fun j => (D ^ j) s) atTop (𝓝 (Q s)) := by
  rw [tendsto_iff_norm_sub_tendsto_zero]
  have l1 : Tendsto (fun j : ℕ => M * r ^ j * ‖s‖) atTop (𝓝 (M * 0 * ‖s‖)) :=
    ((tendsto_const_nhds.mul (tendsto_pow_atTop_nhds_zero_of_lt_one r0.le r1))).mul tendsto_const_nhds
  rw [mul_zero, zero_mul] at l1
  refine squeeze_zero (fun _ => norm_nonneg _) (fun j => ?_) l1
  rw [← _root_.sub_apply]
  exact (ContinuousLinearMap.le_opNorm _ _).trans (mul_le_mul_of_nonneg_right (hM _) (norm_nonneg _))

theorem filterLimit_iff (h : Exact E P g q x A) (hn : g.d.total = n) (hD : ∀ s, g.filtP (arr s.1) = arr (D s).1 ∧ g.filtP (arr s.2) = arr (D s).2)
    (r0 : 0 < r) (r1 : r < 1) (hM : ∀ k, ‖D ^ k - Q‖ ≤ M * r ^ k) (s z : State n) : FilterLimit g s z ↔ z = Q s := by
  constructor
  · rintro ⟨w, hw, hl⟩
    rw [filterSeq_iff h hn hD] at hw
    rw [show w = fun j => (D ^ j) s from funext hw] at hl
    exact tendsto_nhds_unique hl (pow_tendsto r0 r1 hM s)
  · rintro rfl
    exact ⟨fun j => (D ^ j) s, (filterSeq_iff h hn hD s _).mpr fun _ => rfl, pow_tendsto r0 r1 hM s⟩

end

section limit
variable (h : Exact E P g q x A) (hnl : 1 ≤ P.nl)
include h hnl

/-- C97: filtering a finite state again and again converges, to exactly one state, geometrically with the factor `exp(-40/nl¹⁶)`. -/
theorem C97_filter_limit : (∀ s : State (P.nx * P.nlat * P.nphi), ∃! z, FilterLimit g s z) ∧
    ∃ M : ℝ, ∀ (s z : State (P.nx * P.nlat * P.nphi)) (w : ℕ → State (P.nx * P.nlat * P.nphi)), FilterLimit g s z → FilterSeq g s w →
      ∀ k, ‖w k - z‖ ≤ M * Real.exp (-40 / (P.nl : ℝ) ^ 16) ^ k * ‖s‖ := by
  have ht := h.setup.total
  obtain ⟨D, Q, M, hM, hD⟩ := filter_map h hnl ht
  have key := filterLimit_iff h ht hD (Real.exp_pos _) (rate_lt_one hnl) hM
  refine ⟨fun s => ⟨Q s, (key s _).mpr rfl, fun z hz => (key s z).mp hz⟩, M, fun s z w hz hw k => ?_⟩
  rw [(key s z).mp hz, (filterSeq_iff h ht hD s w).mp hw k, ← _root_.sub_apply]
  exact (ContinuousLinearMap.le_opNorm _ _).trans (mul_le_mul_of_nonneg_right (hM k) (norm_nonneg _))

/-- C97: on every sphere the limit has exactly those harmonic coefficients of the state that the filter leaves alone: the constant one,
those of degree `nl` and those of order `nm`. -/
theorem C97_limit_harmonics {s z : State (P.nx * P.nlat * P.nphi)} (hz : FilterLimit g s z) {ix : ℕ} (hx : ix < P.nx) {c : ℕ → ℕ → ℂ} :
    (OnShell P g x ix (arr s.1) c → OnShell P g x ix (arr z.1) (keptC P c)) ∧
    (OnShell P g x ix (arr s.2) c → OnShell P g x ix (arr z.2) (keptC P c)) := by
  have ht := h.setup.total
  have hw := h.setup.wf
  obtain ⟨D, Q, M, hM, hD⟩ := filter_map h hnl ht
  obtain ⟨w, w1, w2⟩ := hz
  have w1' := w1
  rw [filterSeq_iff h ht hD] at w1
  have gen : ∀ π : State (P.nx * P.nlat * P.nphi) → (Fin (P.nx * P.nlat * P.nphi) → ℝ), Continuous π → (∀ s, g.filtP (arr (π s)) = arr (π (D s))) →
      OnShell P g x ix (arr (π s)) c → OnShell P g x ix (arr (π z)) (keptC P c) := by
    intro π hπ hf hc
    have hp : ∀ k, OnShell P g x ix (arr (π (w k))) fun l m => ((filtD P.nl P.nm l m ^ k : ℝ) : ℂ) * c l m := by
      intro k
      rw [w1]
      induction k with
      | zero => simpa using hc
      | succ k ih =>
        rw [pow_succ', mul_apply_eq_comp, ← hf]
        have := h.filt_shell hx ih
        have e : (fun l m => (filtD P.nl P.nm l m : ℂ) * (((filtD P.nl P.nm l m ^ k : ℝ) : ℂ) * c l m)) =
            fun l m => ((filtD P.nl P.nm l m ^ (k + 1) : ℝ) : ℂ) * c l m := by
          funext l m
          push_cast
          ring
        rw [← e]
        exact this
    refine ⟨fun l hl => by unfold keptC; split_ifs <;> simp [hc.1 l hl], fun it ip a b => ?_⟩
    have hin : g.d.InR ix it ip := ⟨by rw [h.nx]; exact hx, by rw [h.nlat]; exact a, by rw [h.nphi]; exact b⟩
    have hlt : g.d.pos3 ix it ip < P.nx * P.nlat * P.nphi := by rw [← ht]; exact g.d.pos3_lt hin
    have val : ∀ y : Fin (P.nx * P.nlat * P.nphi) → ℝ, g.d.at3 (arr y) ix it ip = fin (y ⟨_, hlt⟩) := by
      intro y
      rw [hw.ok.at3_eq _ hin, (arr_isF y).2 _ hlt]
      simp [extF, hlt]
    rw [val, fin_inj]
    have l1 : Tendsto (fun k => π (w k) ⟨_, hlt⟩) atTop (𝓝 (π z ⟨_, hlt⟩)) :=
      ((continuous_apply _).comp hπ).continuousAt.tendsto.comp w2
    refine tendsto_nhds_unique l1 ?_
    have e1 : ∀ k, π (w k) ⟨_, hlt⟩ = ∑ t ∈ modes P.nl P.nm, filtD P.nl P.nm t.1 t.2 ^ k * fieldR P.nl P.nm (oneC t c) (Real.arccos (x it)) (phiN P.nphi ip) := by
      intro k
      have := (hp k).2 it ip a b
      rw [val, fin_inj, fieldR_modes (lam := fun l m => filtD P.nl P.nm l m ^ k)] at this
      exact this
    have e2 : fieldR P.nl P.nm (keptC P c) (Real.arccos (x it)) (phiN P.nphi ip) = ∑ t ∈ modes P.nl P.nm,
        (if t.1 = 0 ∨ t.1 = P.nl ∨ t.2 = P.nm then (1:ℝ) else 0) * fieldR P.nl P.nm (oneC t c) (Real.arccos (x it)) (phiN P.nphi ip) := by
      have := fieldR_modes P.nl P.nm (fun l m => if l = 0 ∨ l = P.nl ∨ m = P.nm then (1:ℝ) else 0) c (Real.arccos (x it)) (phiN P.nphi ip)
      rw [← this]
      congr 1
      funext l m
      unfold keptC
      split_ifs <;> simp
    simp only [e1]
    rw [e2]
    refine tendsto_finsetSum _ fun t htm => ?_
    obtain ⟨t1, t2⟩ := Finset.mem_product.mp htm
    rw [Finset.mem_range] at t1 t2
    by_cases hml : t.2 ≤ t.1
    · refine Tendsto.mul (f := fun k : ℕ => filtD P.nl P.nm t.1 t.2 ^ k) ?_ tendsto_const_nhds
      by_cases hk : t.1 = 0 ∨ t.1 = P.nl ∨ t.2 = P.nm
      · rw [if_pos hk]
        have : filtD P.nl P.nm t.1 t.2 = 1 := by
          unfold filtD
          rcases hk with hk | hk | hk
          · rw [hk, show t.2 = 0 by omega]; simp
          · rw [if_neg (by omega)]
          · rw [if_neg (by omega)]
        rw [this]
        simp
      · rw [if_neg hk]
        push Not at hk
        obtain ⟨a1, a2⟩ := filtD_lt_one (nl := P.nl) (nm := P.nm) (l := t.1) (m := t.2) (by omega) (by omega) (by omega)
        exact tendsto_pow_atTop_nhds_zero_of_lt_one a1.le a2
    · have z0 : fieldR P.nl P.nm (oneC t c) (Real.arccos (x it)) (phiN P.nphi ip) = 0 := by
        have : fieldR P.nl P.nm (oneC t c) (Real.arccos (x it)) (phiN P.nphi ip) = fieldR P.nl P.nm (fun _ _ => 0) (Real.arccos (x it)) (phiN P.nphi ip) := by
          apply fieldR_congr
          intro l m _ _ _
          rw [oneC, if_neg]
          rintro ⟨rfl, rfl⟩
          omega
        rw [this]
        unfold fieldR
        simp
      simp only [z0, mul_zero]
      exact tendsto_const_nhds
  exact ⟨gen Prod.fst continuous_fst fun s => (hD s).1, gen Prod.snd continuous_snd fun s => (hD s).2⟩

end limit

section main
variable (h : Exact E P g q x A) (hnl : 1 ≤ P.nl) (ho : q.Ok) (h0 : 0 < q.lo) (h1 : q.lo < q.up) (h2 : q.up ≤ q.L)
include h hnl ho h0 h1 h2

theorem relax_aux (hn : g.d.total = n) {T : ℝ} (hT : 0 ≤ T) {s0 : State n} {u : ℝ → State n} (hu : SolvesFiltered g P u T) (hu0 : FilterLimit g s0 (u 0))
    (hreg : ∀ w, FilterSeq g s0 w → ∀ j, ∃ d, SlopesAt g P (w (j + 1)) d) :
    ∃ (C : ℝ) (N₀ : ℕ), 0 < N₀ ∧ ∀ N : ℕ, N₀ ≤ N → ∀ e : Eom CR, Eom.Of g { P with dt := fin (T / N) } e → ∀ k, k ≤ N → ∃ w : State n,
      evoP e g (arr s0.1) (arr s0.2) k = (arr w.1, arr w.2) ∧ ‖w - u (k * (T / N))‖ ≤ C * (Real.exp (-40 / (P.nl : ℝ) ^ 16) ^ k + 1 / N) := by
  obtain ⟨G, g1, g2, g3⟩ := vector_field h ho h0 h1 h2 hn
  obtain ⟨D, Q, M, hM, hD⟩ := filter_map h hnl hn
  have r0 : 0 < Real.exp (-40 / (P.nl : ℝ) ^ 16) := Real.exp_pos _
  have r1 := rate_lt_one hnl
  have key := filterLimit_iff h hn hD r0 r1 hM
  have hode : ∀ t ∈ Set.Icc 0 T, HasDerivAt u (Q (G (u t))) t ∧ Nonsing q (u t) := by
    intro t ht
    obtain ⟨d, d', hs, hl, hd⟩ := hu t ht
    obtain ⟨a, b⟩ := slopes_unique h ho h0 h1 h2 hn g1 g2 _ _ hs
    rw [(key d d').mp hl, b] at hd
    exact ⟨hd, a⟩
  have hreg' : ∀ j : ℕ, Nonsing q ((D ^ (j + 1)) s0) := by
    intro j
    obtain ⟨d, hd⟩ := hreg (fun j => (D ^ j) s0) ((filterSeq_iff h hn hD s0 _).mpr fun _ => rfl) j
    exact (slopes_unique h ho h0 h1 h2 hn g1 g2 _ _ hd).1
  obtain ⟨C, N₀, hN0, hC⟩ := rk4_relaxed r0 r1 hM hT (fun t ht => (hode t ht).1) ((key s0 (u 0)).mp hu0).symm (fun t ht => g3 _ (hode t ht).2)
    (W := { s | Nonsing q s }) (fun t ht => nonsing_eventually (hode t ht).2) (fun j => g3 _ (hreg' j)) (fun j => nonsing_eventually (hreg' j))
  refine ⟨C, N₀, hN0, fun N hN e he k hk => ⟨(fun s => rk4 G (T / N) (D s))^[k] s0, ?_, (hC N hN k hk).1⟩⟩
  have h' := h.with_dt (T / N)
  have hdt : e.dt = fin (T / N) := by
    obtain ⟨t, _, rfl⟩ := he.eq h'.setup
    rfl
  have step : ∀ j, j ≤ N → evoP e g (arr s0.1) (arr s0.2) j = (arr ((fun s => rk4 G (T / N) (D s))^[j] s0).1, arr ((fun s => rk4 G (T / N) (D s))^[j] s0).2) := by
    intro j
    induction j with
    | zero => exact fun _ => rfl
    | succ j ih =>
      intro hj
      have hst := (hC N hN j (by omega)).2
      unfold evoP
      rw [ih (by omega)]
      dsimp only
      rw [(hD _).1, (hD _).2, step_arr hn g1 hdt fun r hr => g2 r (hst r hr) (fin (T / N)) e he, Function.iterate_succ_apply']
  exact step k hk

/-- C97: evolving arbitrary data to a fixed time `T` with `N` steps of size `T/N`, for all sufficiently large `N` the arrays after `k≤N`
steps are finite and differ by at most `C (ρ^k + 1/N)`, `ρ = exp(-40/nl¹⁶) < 1`, from `u(kT/N)`, where `u` starts from the limit of repeatedly
filtering the data and its time derivative is the limit of repeatedly filtering the slopes `set_k` returns: refinement in time converges,
but to an evolution in which only the harmonics the filter leaves alone take part (`C97_limit_harmonics`).  The constants depend on `u`
and the data, not on `N`, `k`, the work arrays or the uninitialised memory.  Assumed: `set_k` returns finite slopes along `u` and at the
filtered data. -/
theorem C97_refinement_limit {T : ℝ} (hT : 0 ≤ T) {s0 : State (P.nx * P.nlat * P.nphi)} {u : ℝ → State (P.nx * P.nlat * P.nphi)}
    (hu : SolvesFiltered g P u T) (hu0 : FilterLimit g s0 (u 0)) (hreg : ∀ w, FilterSeq g s0 w → ∀ j, ∃ d, SlopesAt g P (w (j + 1)) d) :
    ∃ (C : ℝ) (N₀ : ℕ), 0 < N₀ ∧ ∀ N : ℕ, N₀ ≤ N → ∀ (e : Eom CR) (J : ℕ → Junk (Cx CR)) (f p : Field CR), Eom.Of g { P with dt := fin (T / N) } e →
      f.Sized (P.nx * P.nlat * P.nphi) → p.Sized (P.nx * P.nlat * P.nphi) → f.n = arr s0.1 → p.n = arr s0.2 →
      ∀ k, k ≤ N → ∃ a F Q w, evolve g J e f p k = .ok (a, F, Q) ∧ F.n = arr w.1 ∧ Q.n = arr w.2 ∧
        ‖w - u (k * (T / N))‖ ≤ C * (Real.exp (-40 / (P.nl : ℝ) ^ 16) ^ k + 1 / N) := by
  obtain ⟨C, N₀, hN0, hC⟩ := relax_aux h hnl ho h0 h1 h2 h.setup.total hT hu hu0 hreg
  refine ⟨C, N₀, hN0, fun N hN e J f p he hf hp e1 e2 k hk => ?_⟩
  obtain ⟨w, w1, w4⟩ := hC N hN e he k hk
  obtain ⟨s, F, Q, a1, _, _, _, a5, a6⟩ := evolve_eq (h.with_dt (T / N)).setup he J hf hp k
  rw [e1, e2, w1] at a5 a6
  exact ⟨_, F, Q, w, a1, a5, a6, w4⟩

/-- C97: the limit equation has a solution from every state at which `set_k` returns finite slopes. -/
theorem C97_limit_solution_exists {z d : State (P.nx * P.nlat * P.nphi)} (hd : SlopesAt g P z d) :
    ∃ (T : ℝ) (u : ℝ → State (P.nx * P.nlat * P.nphi)), 0 < T ∧ u 0 = z ∧ SolvesFiltered g P u T := by
  have ht := h.setup.total
  obtain ⟨G, g1, g2, g3⟩ := vector_field h ho h0 h1 h2 ht
  obtain ⟨D, Q, M, hM, hD⟩ := filter_map h hnl ht
  have key := filterLimit_iff h ht hD (Real.exp_pos _) (rate_lt_one hnl) hM
  have hz := (slopes_unique h ho h0 h1 h2 ht g1 g2 _ _ hd).1
  have han : AnalyticAt ℝ (fun s => Q (G s)) z := (Q.analyticAt _).comp (g3 z hz)
  obtain ⟨u, hu0, ε, hε, hu⟩ := ContDiffAt.exists_forall_mem_closedBall_exists_eq_forall_mem_Ioo_hasDerivAt₀ han.contDiffAt 0
  have hcont : ContinuousAt u 0 := (hu 0 ⟨by linarith, by linarith⟩).continuousAt
  have hev := hcont.eventually (p := fun s => Nonsing q s) (by rw [hu0]; exact nonsing_eventually hz)
  obtain ⟨δ, hδ, hb⟩ := Metric.eventually_nhds_iff.mp hev
  refine ⟨min (ε / 2) (δ / 2), u, lt_min (by linarith) (by linarith), hu0, fun t htm => ?_⟩
  have t1 : t ≤ ε / 2 := htm.2.trans (min_le_left _ _)
  have t2 : t ≤ δ / 2 := htm.2.trans (min_le_right _ _)
  have hns : Nonsing q (u t) := hb (by rw [Real.dist_0_eq_abs, abs_of_nonneg htm.1]; linarith)
  refine ⟨G (u t), Q (G (u t)), fun e he => ?_, (key _ _).mpr rfl, hu t ⟨by linarith [htm.1], by linarith⟩⟩
  have := slopes_rhs h.setup he (u := arr (u t).1) (v := arr (u t).2) (by simp [arr, ht]) (by simp [arr, ht])
  rw [g2 _ hns P.dt e he] at this
  rw [g1]
  exact this

end main

/-- Non-vacuity of C97: on the demonstration grid, for both radial schemes, the hypotheses hold for zero `f` and every array `p`. -/
example (contig ndebug useCheb : Bool) : ∃ (E : Env CR) (x : ℕ → ℝ) (A : ℕ → ℕ → ℕ → ℝ) (g : Grid CR), Exact E freeP g freeQ x A ∧
    ∀ y : Fin (freeP.nx * freeP.nlat * freeP.nphi) → ℝ, ∃ (T : ℝ) (u : ℝ → State (freeP.nx * freeP.nlat * freeP.nphi)), 0 < T ∧
      SolvesFiltered g freeP u T ∧ FilterLimit g (0, y) (u 0) ∧ ∀ w, FilterSeq g (0, y) w → ∀ j, ∃ d, SlopesAt g freeP (w (j + 1)) d := by
  obtain ⟨E, x, A, g, e, hX, he, ho, h4, h5, h6, _, hk⟩ := free_exact contig ndebug useCheb
  have hnl : 1 ≤ freeP.nl := by decide
  have ht := hX.setup.total
  have hns : ∀ y : Fin (freeP.nx * freeP.nlat * freeP.nphi) → ℝ, ∃ d, SlopesAt g freeP (0, y) d := by
    intro y
    obtain ⟨G, g1, g2, g3⟩ := vector_field hX ho h4 h5 h6 ht
    refine ⟨G (0, y), fun e he => ?_⟩
    have hns : Nonsing freeQ ((0, y) : State (freeP.nx * freeP.nlat * freeP.nphi)) := fun i => ⟨by norm_num, by
      unfold Phys.kin Kerr.kin
      simpa [add_comm] using hk⟩
    have := slopes_rhs hX.setup he (u := arr ((0, y) : State (freeP.nx * freeP.nlat * freeP.nphi)).1) (v := arr y) (by simp [arr, ht]) (by simp [arr, ht])
    rw [g2 (0, y) hns freeP.dt e he] at this
    rw [g1]
    exact this
  obtain ⟨D, Q, M, hM, hD⟩ := filter_map hX hnl ht
  have hD0 : ∀ s : State (freeP.nx * freeP.nlat * freeP.nphi), s.1 = 0 → (D s).1 = 0 := by
    intro s hs
    have h1 := (hD s).1
    have h2 := (hD 0).1
    rw [map_zero] at h2
    rw [hs] at h1
    exact (arr_inj (h2.symm.trans h1)).symm
  have key := filterLimit_iff hX ht hD (Real.exp_pos _) (rate_lt_one hnl) hM
  refine ⟨E, x, A, g, hX, fun y => ?_⟩
  have hpow : ∀ j : ℕ, ((D ^ j) (0, y)).1 = 0 := by
    intro j
    induction j with
    | zero => rfl
    | succ j ih => rw [pow_succ', mul_apply_eq_comp]; exact hD0 _ ih
  have hlim : (Q (0, y)).1 = 0 := by
    have l := pow_tendsto (Real.exp_pos _) (rate_lt_one hnl) hM (0, y)
    have l1 := continuous_fst.continuousAt.tendsto.comp l
    refine tendsto_nhds_unique l1 ?_
    have : (Prod.fst ∘ fun j => (D ^ j) (0, y)) = fun _ => 0 := funext hpow
    rw [this]
    exact tendsto_const_nhds
  have pair : ∀ s : State (freeP.nx * freeP.nlat * freeP.nphi), s.1 = 0 → ∃ d, SlopesAt g freeP s d := by
    intro s hs
    obtain ⟨d, hd⟩ := hns s.2
    refine ⟨d, ?_⟩
    rw [← hs] at hd
    exact hd
  obtain ⟨d, hd⟩ := pair _ hlim
  obtain ⟨T, u, hT, hu0, hu⟩ := C97_limit_solution_exists hX hnl ho h4 h5 h6 hd
  refine ⟨T, u, hT, hu, (key _ _).mpr hu0, fun w hw j => ?_⟩
  rw [(filterSeq_iff hX ht hD _ w).mp hw]
  exact pair _ (hpow _)

end SFK
