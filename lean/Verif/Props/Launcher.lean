import Verif.Spec.Launcher
import Verif.Props.Run
import Verif.Props.InitialData
import Verif.Props.Grid
/-
C81: what the launcher's settings mean for the run.
-/
namespace SFK
open Scalar CR Launcher

variable {S : Settings ℝ}

/-- the parameters the solver gets from the setting, in exact arithmetic -/
noncomputable abbrev paramsOf (S : Settings ℝ) : ParamRec CR := Launcher.params intCR (S.map fin)

namespace Launcher.Settings.Sensible
variable (h : S.Sensible)
include h

theorem disc : 0 ≤ S.mass ^ 2 - S.spin ^ 2 := by
  have := abs_le.mp h.spin
  nlinarith

theorem horizon_pos : 0 < horizonR S.mass S.spin := by
  unfold horizonR
  have := Real.sqrt_nonneg (S.mass ^ 2 - S.spin ^ 2)
  linarith [h.mass]

theorem horizon : Launcher.horizon (fin S.mass) (fin S.spin) = fin (horizonR S.mass S.spin) := by
  unfold Launcher.horizon horizonR
  rw [fin_sub, fin_add, fin_mul, show (S.mass - S.spin) * (S.mass + S.spin) = S.mass ^ 2 - S.spin ^ 2 by ring, fin_rt _ h.disc, fin_add]

theorem nx_pos : (0:ℝ) < S.nx - 1 := by
  have : (2:ℝ) ≤ S.nx := by exact_mod_cast h.nx
  linarith

theorem step_pos : 0 < S.step := by
  unfold Settings.step
  have h1 : (0:ℝ) < ((max S.nlat S.nphi : ℕ) : ℝ) := by exact_mod_cast lt_of_lt_of_le h.nlat (le_max_left _ _)
  have h2 : (0:ℝ) < ((max S.nx (max S.nlat S.nphi) : ℕ) : ℝ) := by
    exact_mod_cast lt_of_lt_of_le (by have := h.nx; omega) (le_max_left _ _)
  split_ifs with hc
  · positivity
  · refine lt_min (by positivity) (div_pos (h.cfl (by simpa using hc)) h.nx_pos)

theorem timeStep : Launcher.timeStep S.use_cheb (fin S.cfl) S.nx S.nlat S.nphi = fin S.step := by
  have h1 : (0:ℝ) < ((max S.nlat S.nphi : ℕ) : ℝ) := by exact_mod_cast lt_of_lt_of_le h.nlat (le_max_left _ _)
  have h2 : (0:ℝ) < ((max S.nx (max S.nlat S.nphi) : ℕ) : ℝ) := by
    exact_mod_cast lt_of_lt_of_le (by have := h.nx; omega) (le_max_left _ _)
  have key : ∀ n : ℕ, (0:ℝ) < (n : ℝ) → (6 * (1 / pown (dbl n) 2) : CR) = fin (6 / (n:ℝ) ^ 2) := by
    intro n hn
    rw [fin_dbl, fin_pown, fin_ofNat', fin_ofNat_one, fin_div _ _ (by positivity), fin_mul, fin_inj]
    ring
  unfold Launcher.timeStep Settings.step
  cases S.use_cheb
  · simp only [Bool.false_eq_true, if_false]
    rw [key _ h1, fin_dbl, fin_ofNat_one, fin_sub, fin_div _ _ h.nx_pos.ne']
    split
    · rename_i hlt
      rw [fin_lt] at hlt
      rw [min_eq_right hlt.le]
    · rename_i hlt
      rw [fin_lt, not_lt] at hlt
      rw [min_eq_left hlt]
  · simp only [if_true]
    exact key _ h2

theorem dt : (paramsOf S).dt = fin S.step := h.timeStep

theorem nt : (paramsOf S).nt = ⌊S.evolve_time * S.mass / S.step⌋₊ := by
  show intCR (fin S.evolve_time * fin S.mass / Launcher.timeStep S.use_cheb (fin S.cfl) S.nx S.nlat S.nphi) = _
  rw [h.timeStep, fin_mul, fin_div _ _ h.step_pos.ne']
  rfl

end Launcher.Settings.Sensible

/-- C81: the time step is the one asked for; it is positive. -/
theorem C81_time_step (h : S.Sensible) : (paramsOf S).dt = fin S.step ∧ 0 < S.step := ⟨h.dt, h.step_pos⟩

/-- C81: the number of steps written is the largest whose total does not exceed `evolve_time*mass`. -/
theorem C81_number_of_steps (h : S.Sensible) : (paramsOf S).nt * S.step ≤ S.evolve_time * S.mass ∧
    S.evolve_time * S.mass < ((paramsOf S).nt + 1) * S.step := by
  have hp := h.step_pos
  have h0 : 0 ≤ S.evolve_time * S.mass / S.step := div_nonneg (mul_nonneg h.time h.mass.le) hp.le
  rw [h.nt]
  constructor
  · rw [← le_div_iff₀ hp]; exact Nat.floor_le h0
  · rw [← div_lt_iff₀ hp]; exact Nat.lt_floor_add_one _

/-- C81: the parameters describe a black hole and the radial interval from its horizon (compactified) to infinity. -/
theorem C81_domain (h : S.Sensible) : ∃ q : Phys, q.Is (paramsOf S) ∧ q.Ok ∧ q.M = S.mass ∧ q.a = S.spin ∧ q.L = S.cl ∧ q.dt = S.step ∧
    q.lo = compR S.cl (horizonR S.mass S.spin) ∧ 0 < q.lo ∧ q.lo < q.up ∧ q.up = q.L := by
  have hr := h.horizon_pos
  have hL := h.cl
  have h1 : 1 + horizonR S.mass S.spin / S.cl ≠ 0 := by positivity
  have hRmin : Launcher.Rmin (fin S.cl) (fin S.mass) (fin S.spin) = fin (compR S.cl (horizonR S.mass S.spin)) := by
    unfold Launcher.Rmin
    rw [h.horizon]
    unfold Launcher.compactification compR
    simp [hL.ne', h1]
  refine ⟨⟨S.mass, S.spin, S.cl, compR S.cl (horizonR S.mass S.spin), S.cl, S.step, S.km1, S.k0, S.k1, S.k2, S.V2, S.V3, S.V4⟩,
    ⟨rfl, rfl, rfl, hRmin, rfl, h.dt, rfl, rfl, rfl, rfl, rfl, rfl, rfl⟩, ⟨h.mass, h.spin, h.noRound, hL⟩, rfl, rfl, rfl, rfl, rfl, ?_, ?_, rfl⟩
  · unfold compR; dsimp only; positivity
  · have e : S.cl - compR S.cl (horizonR S.mass S.spin) = S.cl ^ 2 / (S.cl + horizonR S.mass S.spin) := by
      unfold compR; field_simp; ring
    have : 0 < S.cl ^ 2 / (S.cl + horizonR S.mass S.spin) := by positivity
    show compR S.cl (horizonR S.mass S.spin) < S.cl
    linarith

/-- C81: for finite differences `cfl` bounds the ratio of time step and radial spacing, provided the compactification length is not too
small: `L + r₊ ≤ L²`. -/
theorem C81_courant (h : S.Sensible) (hc : S.use_cheb = false) (hL : S.cl + horizonR S.mass S.spin ≤ S.cl ^ 2) :
    S.step ≤ S.cfl * ((S.cl - compR S.cl (horizonR S.mass S.spin)) / (S.nx - 1)) := by
  have hr := h.horizon_pos
  have hl := h.cl
  have e : S.cl - compR S.cl (horizonR S.mass S.spin) = S.cl ^ 2 / (S.cl + horizonR S.mass S.spin) := by
    unfold compR; field_simp; ring
  have h1 : (1:ℝ) ≤ S.cl ^ 2 / (S.cl + horizonR S.mass S.spin) := by rw [le_div_iff₀ (by positivity)]; linarith
  rw [e]
  have : S.step ≤ S.cfl / (S.nx - 1) := by
    unfold Settings.step
    rw [hc]
    simp only [Bool.false_eq_true, if_false]
    exact min_le_right _ _
  refine this.trans ?_
  rw [mul_div_assoc', div_le_div_iff_of_pos_right h.nx_pos]
  nlinarith [h.cfl hc]

/-- C81: ... and otherwise, if the Courant number decides the time step, the ratio is larger than `cfl`. -/
theorem C81_courant_exceeded (h : S.Sensible) (hc : S.use_cheb = false) (hL : S.cl ^ 2 < S.cl + horizonR S.mass S.spin)
    (hd : S.cfl / (S.nx - 1) ≤ 6 / ((max S.nlat S.nphi : ℕ) : ℝ) ^ 2) :
    S.cfl * ((S.cl - compR S.cl (horizonR S.mass S.spin)) / (S.nx - 1)) < S.step := by
  have hr := h.horizon_pos
  have hl := h.cl
  have e : S.cl - compR S.cl (horizonR S.mass S.spin) = S.cl ^ 2 / (S.cl + horizonR S.mass S.spin) := by
    unfold compR; field_simp; ring
  have h1 : S.cl ^ 2 / (S.cl + horizonR S.mass S.spin) < 1 := by rw [div_lt_one (by positivity)]; linarith
  have hs : S.step = S.cfl / (S.nx - 1) := by
    unfold Settings.step
    rw [hc]
    simp only [Bool.false_eq_true, if_false]
    exact min_eq_right hd
  rw [e, hs, mul_div_assoc', div_lt_div_iff_of_pos_right h.nx_pos]
  nlinarith [h.cfl hc]

/-- C81: the initial pulse: with `rl_0 < ru_0` (apart by more than rounding) its profile is positive exactly at the radii strictly
between `rl_0` and `ru_0` times the horizon radius. -/
theorem C81_pulse (h : S.Sensible) (hw : 1 / 10 ^ 14 ≤ horizonR S.mass S.spin * (S.ru_0 - S.rl_0)) (r : ℝ) :
    ∃ y, ID.profile (paramsOf S).rl (paramsOf S).ru (ID.width (paramsOf S).rl (paramsOf S).ru) (fin r) = fin y ∧
      (S.rl_0 * horizonR S.mass S.spin < r ∧ r < S.ru_0 * horizonR S.mass S.spin → 0 < y) ∧
      (r ≤ S.rl_0 * horizonR S.mass S.spin ∨ S.ru_0 * horizonR S.mass S.spin ≤ r → y = 0) := by
  have e1 : (paramsOf S).rl = fin (horizonR S.mass S.spin * S.rl_0) := by
    show Launcher.pulseRadius (fin S.mass) (fin S.spin) (fin S.rl_0) = _
    unfold Launcher.pulseRadius
    rw [h.horizon, fin_mul]
  have e2 : (paramsOf S).ru = fin (horizonR S.mass S.spin * S.ru_0) := by
    show Launcher.pulseRadius (fin S.mass) (fin S.spin) (fin S.ru_0) = _
    unfold Launcher.pulseRadius
    rw [h.horizon, fin_mul]
  rw [e1, e2, mul_comm S.rl_0, mul_comm S.ru_0]
  obtain ⟨a1, _, a3, a4⟩ := C52_profile_and_slope (rl := horizonR S.mass S.spin * S.rl_0) (ru := horizonR S.mass S.spin * S.ru_0)
    (by rw [← mul_sub]; exact hw) r
  exact ⟨_, a1, fun hh => a3 hh.1 hh.2, a4⟩

/-- C81: the last saved time.  Every printed time is at least one step short of `evolve_time*mass`, and the last one lies within
`t_step_save + 1` steps of it. -/
theorem C81_covers_time_partial (h : S.Sensible) {E : Env CR} (hV : Valid E (paramsOf S)) (hnt : 1 ≤ (paramsOf S).nt) (io : IOEnv CR) (J : Junk (Cx CR))
    (dir : List Char) :
    (∀ t r v, Event.diag t r v ∈ (Main.run E io J dir (paramsOf S)).events → ∃ y : ℝ, t = fin y ∧ y ≤ S.evolve_time * S.mass - S.step) ∧
    ∃ y r v, Event.diag (fin y) r v ∈ (Main.run E io J dir (paramsOf S)).events ∧
      S.evolve_time * S.mass - ((paramsOf S).t_step_save + 1) * S.step < y := by
  obtain ⟨g, hS, F, Q, A, B, hH, D, tF, tD, res, tv, hD⟩ := C69_history_exists hV io (stepMem J) (saveMem J)
  have hts : 1 ≤ (paramsOf S).t_step_save := C65_launcher_interval_positive _ _
  obtain ⟨n1, n2⟩ := C81_number_of_steps h
  have hp := h.step_pos
  constructor
  · intro t r v ht
    obtain ⟨i, h1, _, _, _, h5⟩ := C64_printed_time_partial hV hS J hH hD hts hnt dir ht
    have hi : (i:ℝ) + 1 ≤ (paramsOf S).nt := by exact_mod_cast h1
    rcases h5 with h5 | ⟨h5, h6⟩
    · refine ⟨S.step * i, by rw [h5, h.dt, fin_dbl, fin_mul], ?_⟩
      nlinarith
    · refine ⟨0, by rw [h6, fin_lit]; norm_num, ?_⟩
      have : (1:ℝ) ≤ (paramsOf S).nt := by exact_mod_cast hnt
      nlinarith
  · generalize hn : (paramsOf S).nt = nt at *
    generalize hs : (paramsOf S).t_step_save = ts at *
    have hl := C63_printed_lines hV hS J hH hD (by rw [hs]; exact hts) dir
    rw [hn, hs] at hl
    have hm : ((if (nt - 1) / ts = 0 then lit 0 else (paramsOf S).dt * dbl ((nt - 1) / ts * ts), res ((nt - 1) / ts * ts), tv ((nt - 1) / ts * ts)) : CR × CR × CR)
        ∈ (Main.run E io J dir (paramsOf S)).events.filterMap diagOf := by
      rw [hl]
      exact List.mem_map.mpr ⟨(nt - 1) / ts, by simp, rfl⟩
    obtain ⟨ev, hev, he⟩ := List.mem_filterMap.mp hm
    have hev' : ev = Event.diag (if (nt - 1) / ts = 0 then lit 0 else (paramsOf S).dt * dbl ((nt - 1) / ts * ts)) (res ((nt - 1) / ts * ts)) (tv ((nt - 1) / ts * ts)) := by
      cases ev <;> simp_all [diagOf]
    refine ⟨S.step * ((nt - 1) / ts * ts : ℕ), res ((nt - 1) / ts * ts), tv ((nt - 1) / ts * ts), ?_, ?_⟩
    · rw [hev'] at hev
      convert hev using 2
      split
      · rename_i h0
        rw [h0]
        simp [fin_lit]
      · rw [h.dt, fin_dbl, fin_mul]
    · have hd := Nat.div_add_mod (nt - 1) ts
      have hmod := Nat.mod_lt (nt - 1) (show 0 < ts by omega)
      have h3 : nt + 1 ≤ (nt - 1) / ts * ts + (ts + 1) := by
        rw [Nat.mul_comm] at hd
        omega
      have h4 : (nt:ℝ) + 1 ≤ (((nt - 1) / ts * ts : ℕ) : ℝ) + (ts + 1) := by exact_mod_cast h3
      nlinarith


/-- The settings of runscript_template.py. -/
noncomputable def templateS : Settings ℝ where
  mass := 1
  spin := 9999 / 10000
  cl := 20
  evolve_time := 600
  cfl := 3 / 4
  rl_0 := -1
  ru_0 := 3
  num_saved_times := 1200
  nx := 8193
  nl := 20
  nm := 18
  nlat := 40
  nphi := 40
  use_cheb := false
  km1 := 0
  k0 := 1
  k1 := 0
  k2 := 0
  V2 := 1
  V3 := 0
  V4 := 100
  l_ang := 0
  m_ang := 0
  amp := 1 / 2
  id := "compact_pulse".toList
  direction := "outgoing".toList

theorem template_sensible : templateS.Sensible := by
  constructor <;> simp only [templateS]
  · norm_num
  · rw [abs_of_pos] <;> norm_num
  · have : |(9999 / 10000 : ℝ)| = 9999 / 10000 := abs_of_pos (by norm_num)
    refine ⟨Or.inr ?_, Or.inr ?_⟩ <;> rw [this]
    · rw [show (1:ℝ) - 9999 / 10000 = 1 / 10000 by norm_num, abs_of_pos (by norm_num)]
      norm_num
    · norm_num
  · norm_num
  · norm_num
  · norm_num
  · norm_num
  · norm_num

/-- Non-vacuity: the template's settings are sensible, the Courant condition applies to them, and they ask for 6553600 steps. -/
example : templateS.Sensible ∧ templateS.use_cheb = false ∧ templateS.cl + horizonR templateS.mass templateS.spin ≤ templateS.cl ^ 2 ∧
    1 / 10 ^ 14 ≤ horizonR templateS.mass templateS.spin * (templateS.ru_0 - templateS.rl_0) ∧ (paramsOf templateS).nt = 6553600 := by
  have hh : horizonR 1 (9999 / 10000) ≤ 2 ∧ 1 ≤ horizonR 1 (9999 / 10000) := by
    unfold horizonR
    have h1 : Real.sqrt (1 ^ 2 - (9999 / 10000) ^ 2) ≤ 1 := Real.sqrt_le_iff.mpr ⟨by norm_num, by norm_num⟩
    have := Real.sqrt_nonneg (1 ^ 2 - (9999 / 10000 : ℝ) ^ 2)
    constructor <;> linarith
  refine ⟨template_sensible, rfl, ?_, ?_, ?_⟩
  · show (20:ℝ) + horizonR 1 (9999 / 10000) ≤ 20 ^ 2
    linarith [hh.1]
  · show 1 / 10 ^ 14 ≤ horizonR 1 (9999 / 10000) * ((3:ℝ) - -1)
    have : (1:ℝ) / 10 ^ 14 ≤ 1 := by norm_num
    linarith [hh.2]
  · rw [template_sensible.nt]
    have hs : templateS.step = 3 / 4 / 8192 := by
      unfold Settings.step templateS
      norm_num
    rw [hs]
    simp only [templateS]
    norm_num

/-- Non-vacuity of C81_courant_exceeded: the template with compactification length 1 and a coarser angular grid. -/
example : ∃ S : Settings ℝ, S.Sensible ∧ S.use_cheb = false ∧ S.cl ^ 2 < S.cl + horizonR S.mass S.spin ∧
    S.cfl / (S.nx - 1) ≤ 6 / ((max S.nlat S.nphi : ℕ) : ℝ) ^ 2 := by
  refine ⟨{ templateS with cl := 1 }, ⟨template_sensible.mass, template_sensible.spin, template_sensible.noRound, one_pos,
    template_sensible.time, template_sensible.cfl, template_sensible.nx, template_sensible.nlat⟩, rfl, ?_, ?_⟩
  · show (1:ℝ) ^ 2 < 1 + horizonR 1 (9999 / 10000)
    unfold horizonR
    have := Real.sqrt_nonneg (1 ^ 2 - (9999 / 10000 : ℝ) ^ 2)
    linarith
  · simp only [templateS]
    norm_num

/-- Non-vacuity of C81_covers_time_partial: the template's physics on a 33×8×16 grid, which the libraries serve. -/
example : ∃ (S : Settings ℝ) (E : Env CR), S.Sensible ∧ Valid E (paramsOf S) ∧ 1 ≤ (paramsOf S).nt := by
  obtain ⟨E, x, A, g, e, _, _, h3, h4, hS, _⟩ := demo_setup true false false
  have hs : ({ templateS with nx := 33, nl := 7, nm := 7, nlat := 8, nphi := 16 } : Settings ℝ).Sensible :=
    ⟨template_sensible.mass, template_sensible.spin, template_sensible.noRound, template_sensible.cl,
      template_sensible.time, template_sensible.cfl, by decide, by decide⟩
  have hn : (paramsOf { templateS with nx := 33, nl := 7, nm := 7, nlat := 8, nphi := 16 }).nt = 25600 := by
    rw [hs.nt]
    unfold Settings.step templateS
    norm_num
  exact ⟨_, E, hs, ⟨hS.sized, hS.sizes, le_refl 0, le_refl 0, by decide, by decide, by rw [hn]; norm_num⟩, by rw [hn]; norm_num⟩

end SFK
