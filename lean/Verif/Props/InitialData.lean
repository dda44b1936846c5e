import Verif.Spec.InitialData
import Verif.Lemmas.InitialData
import Verif.Lemmas.Setup
import Mathlib.Analysis.Calculus.Deriv.Pow
import Mathlib.Analysis.Calculus.Deriv.Inv
import Mathlib.Analysis.SpecialFunctions.ExpDeriv
/-
C52-C55: the initial data, in exact arithmetic.
-/
namespace SFK
open Scalar CR

/-! ## C52: the profile and its slope -/

theorem width_fin {rl ru : ℝ} (h : 1 / 10 ^ 14 ≤ ru - rl) : ID.width (fin rl) (fin ru) = fin (ru - rl) := by
  have h0 : 0 < ru - rl := lt_of_lt_of_le (by positivity) h
  unfold ID.width
  simp only [fin_sub, fin_fabs, fin_tenth, abs_of_pos h0]
  rw [if_neg]
  rw [fin_lt]
  exact not_lt.mpr h

theorem bump_fin {rl ru w : ℝ} (r : ℝ) : ID.bump (fin rl) (fin ru) (fin w) (fin r) =
    fin (if rl < r ∧ r < ru then Real.exp (-(w / (r - rl))) * Real.exp (-(2 * w / (ru - r))) else 0) := by
  unfold ID.bump
  by_cases h : rl < r ∧ r < ru
  · rw [if_pos h, if_pos (by simp [h.1, h.2])]
    have h1 : r - rl ≠ 0 := by linarith [h.1]
    have h2 : ru - r ≠ 0 := by linarith [h.2]
    simp only [fin_ofNat_one, fin_ofNat', fin_neg, fin_mul, fin_sub, fin_div _ _ h1, fin_div _ _ h2, fin_exp, fin_inj]
    congr 2 <;> ring
  · rw [if_neg h, if_neg]
    · simp
    · simp only [Bool.and_eq_true, fin_lt]
      tauto

/-- closed form of the slope -/
noncomputable def pulseD (rl ru r : ℝ) : ℝ :=
  (4 * ((r - rl) / (ru - rl)) ^ 3 * ((ru - r) / (ru - rl)) ^ 4 - 4 * ((r - rl) / (ru - rl)) ^ 4 * ((ru - r) / (ru - rl)) ^ 3
    + ((r - rl) / (ru - rl)) ^ 2 * ((ru - r) / (ru - rl)) ^ 4 - 2 * ((r - rl) / (ru - rl)) ^ 4 * ((ru - r) / (ru - rl)) ^ 2)
  * ((if rl < r ∧ r < ru then Real.exp (-((ru - rl) / (r - rl))) * Real.exp (-(2 * (ru - rl) / (ru - r))) else 0) / (ru - rl))

theorem pulseD_out {rl ru r : ℝ} (h : ¬(rl < r ∧ r < ru)) : pulseD rl ru r = 0 := by
  unfold pulseD
  rw [if_neg h]; ring

theorem pulse_out {rl ru r : ℝ} (h : ¬(rl < r ∧ r < ru)) : pulse rl ru r = 0 := if_neg h

theorem pulse_le_left {rl ru r : ℝ} : |pulse rl ru r| ≤ (1 / (ru - rl)) ^ 4 * ‖r - rl‖ ^ 4 ∧
    |pulse rl ru r| ≤ (1 / (ru - rl)) ^ 4 * ‖r - ru‖ ^ 4 := by
  by_cases h : rl < r ∧ r < ru
  · have hw : 0 < ru - rl := by linarith [h.1, h.2]
    have h1 : 0 < r - rl := by linarith [h.1]
    have h2 : 0 < ru - r := by linarith [h.2]
    have e1 : Real.exp (-((ru - rl) / (r - rl))) ≤ 1 := by rw [Real.exp_le_one_iff]; rw [neg_nonpos]; positivity
    have e2 : Real.exp (-(2 * (ru - rl) / (ru - r))) ≤ 1 := by rw [Real.exp_le_one_iff]; rw [neg_nonpos]; positivity
    have p1 : ((r - rl) / (ru - rl)) ^ 4 ≤ 1 := pow_le_one₀ (by positivity) (by rw [div_le_one hw]; linarith)
    have p2 : ((ru - r) / (ru - rl)) ^ 4 ≤ 1 := pow_le_one₀ (by positivity) (by rw [div_le_one hw]; linarith)
    have e3 : Real.exp (-((ru - rl) / (r - rl))) * Real.exp (-(2 * (ru - rl) / (ru - r))) ≤ 1 :=
      mul_le_one₀ e1 (Real.exp_pos _).le e2
    have e4 : 0 ≤ Real.exp (-((ru - rl) / (r - rl))) * Real.exp (-(2 * (ru - rl) / (ru - r))) := by positivity
    unfold pulse
    rw [if_pos h, abs_of_nonneg (by positivity), Real.norm_of_nonneg h1.le, Real.norm_eq_abs, abs_sub_comm, abs_of_pos h2]
    have q1 : (1 / (ru - rl)) ^ 4 * (r - rl) ^ 4 = ((r - rl) / (ru - rl)) ^ 4 := by rw [← mul_pow]; congr 1; ring
    have q2 : (1 / (ru - rl)) ^ 4 * (ru - r) ^ 4 = ((ru - r) / (ru - rl)) ^ 4 := by rw [← mul_pow]; congr 1; ring
    rw [q1, q2]
    generalize Real.exp (-((ru - rl) / (r - rl))) * Real.exp (-(2 * (ru - rl) / (ru - r))) = e at *
    have u1 : 0 ≤ ((r - rl) / (ru - rl)) ^ 4 := by positivity
    have u2 : 0 ≤ ((ru - r) / (ru - rl)) ^ 4 := by positivity
    constructor
    · calc _ ≤ ((r - rl) / (ru - rl)) ^ 4 * ((ru - r) / (ru - rl)) ^ 4 * 1 := by gcongr
        _ ≤ ((r - rl) / (ru - rl)) ^ 4 * 1 * 1 := by gcongr
        _ = _ := by ring
    · calc _ ≤ ((r - rl) / (ru - rl)) ^ 4 * ((ru - r) / (ru - rl)) ^ 4 * 1 := by gcongr
        _ ≤ 1 * ((ru - r) / (ru - rl)) ^ 4 * 1 := by gcongr
        _ = _ := by ring
  · rw [pulse_out h, abs_zero]
    constructor <;> positivity

theorem hasDerivAt_zero_of_quartic {f : ℝ → ℝ} {a C : ℝ} (h0 : f a = 0) (h : ∀ r, |f r| ≤ C * ‖r - a‖ ^ 4) : HasDerivAt f 0 a := by
  rw [hasDerivAt_iff_isLittleO]
  have h1 : (fun r => f r - f a - (r - a) • (0:ℝ)) =O[nhds a] fun r => ‖r - a‖ ^ 4 := by
    refine Asymptotics.IsBigO.of_bound C (Filter.Eventually.of_forall fun r => ?_)
    simp only [h0, sub_zero, smul_zero, Real.norm_eq_abs]
    have := h r
    rw [Real.norm_eq_abs] at this
    rw [abs_of_nonneg (a := |r - a| ^ 4) (by positivity)]
    exact this
  exact h1.trans_isLittleO (Asymptotics.isLittleO_pow_sub_sub a (by norm_num))

theorem hasDerivAt_pulse (rl ru : ℝ) (r : ℝ) : HasDerivAt (pulse rl ru) (pulseD rl ru r) r := by
  by_cases h : rl < r ∧ r < ru
  · have hw : ru - rl ≠ 0 := by linarith [h.1, h.2]
    have h1 : r - rl ≠ 0 := by linarith [h.1]
    have h2 : ru - r ≠ 0 := by linarith [h.2]
    have hev : pulse rl ru =ᶠ[nhds r] fun r => ((r - rl) / (ru - rl)) ^ 4 * ((ru - r) / (ru - rl)) ^ 4 *
      (Real.exp (-((ru - rl) / (r - rl))) * Real.exp (-(2 * (ru - rl) / (ru - r)))) := by
      filter_upwards [lt_mem_nhds h.1, gt_mem_nhds h.2] with s hs1 hs2
      unfold pulse
      rw [if_pos ⟨hs1, hs2⟩]
    refine HasDerivAt.congr_of_eventuallyEq ?_ hev
    have d1 : HasDerivAt (fun r => r - rl) 1 r := (hasDerivAt_id r).sub_const rl
    have d2 : HasDerivAt (fun r => ru - r) (-1) r := (hasDerivAt_id r).const_sub ru
    have a1 := (d1.div_const (ru - rl)).pow 4
    have a2 := (d2.div_const (ru - rl)).pow 4
    have b1 := (((hasDerivAt_const r (ru - rl)).fun_div d1 h1).fun_neg).exp
    have b2 := (((hasDerivAt_const r (2 * (ru - rl))).fun_div d2 h2).fun_neg).exp
    refine ((a1.mul a2).mul (b1.mul b2)).congr_deriv ?_
    unfold pulseD
    rw [if_pos h]
    simp only [Pi.pow_apply, Pi.mul_apply]
    generalize Real.exp (-((ru - rl) / (r - rl))) = e1
    generalize Real.exp (-(2 * (ru - rl) / (ru - r))) = e2
    generalize ru - r = v at *
    generalize r - rl = u at *
    generalize ru - rl = w at *
    rw [show 4 - 1 = 3 from rfl, Nat.cast_ofNat]
    field_simp
    ring
  · rw [pulseD_out h]
    rcases lt_trichotomy r rl with h1 | h1 | h1
    · refine HasDerivAt.congr_of_eventuallyEq (hasDerivAt_const r 0) ?_
      filter_upwards [gt_mem_nhds h1] with s hs
      exact pulse_out (by intro h; linarith [h.1])
    · subst h1
      exact hasDerivAt_zero_of_quartic (pulse_out h) fun s => pulse_le_left.1
    · have h2 : ru ≤ r := by by_contra hc; exact h ⟨h1, not_le.mp hc⟩
      rcases h2.eq_or_lt with h2 | h2
      · subst h2
        exact hasDerivAt_zero_of_quartic (pulse_out h) fun s => pulse_le_left.2
      · refine HasDerivAt.congr_of_eventuallyEq (hasDerivAt_const r 0) ?_
        filter_upwards [lt_mem_nhds h2] with s hs
        exact pulse_out (by intro h; linarith [h.2])

theorem profile_fin {rl ru : ℝ} (h : 1 / 10 ^ 14 ≤ ru - rl) (r : ℝ) :
    ID.profile (fin rl) (fin ru) (ID.width (fin rl) (fin ru)) (fin r) = fin (pulse rl ru r) := by
  have hw : ru - rl ≠ 0 := (lt_of_lt_of_le (by positivity) h : 0 < ru - rl).ne'
  rw [width_fin h]
  unfold ID.profile
  rw [bump_fin]
  simp only [fin_sub, fin_div _ _ hw, fin_pown, fin_mul, fin_inj]
  unfold pulse
  split <;> ring

theorem slope_fin {rl ru : ℝ} (h : 1 / 10 ^ 14 ≤ ru - rl) (r : ℝ) :
    ID.slope (fin rl) (fin ru) (ID.width (fin rl) (fin ru)) (fin r) = fin (pulseD rl ru r) := by
  have hw : ru - rl ≠ 0 := (lt_of_lt_of_le (by positivity) h : 0 < ru - rl).ne'
  rw [width_fin h]
  unfold ID.slope
  rw [bump_fin]
  simp only [fin_sub, fin_div _ _ hw, fin_pown, fin_mul, fin_ofNat', fin_add, fin_inj]
  rfl

/-- C52: at every radius the unmodulated initial field is the pulse, and the slope used for the velocity is its derivative: the
pulse is differentiable everywhere (also at the two ends of its support), non-negative and zero outside `(rl,ru)`. -/
theorem C52_profile_and_slope {rl ru : ℝ} (h : 1 / 10 ^ 14 ≤ ru - rl) (r : ℝ) :
    ID.profile (fin rl) (fin ru) (ID.width (fin rl) (fin ru)) (fin r) = fin (pulse rl ru r) ∧
    (∃ d, ID.slope (fin rl) (fin ru) (ID.width (fin rl) (fin ru)) (fin r) = fin d ∧ HasDerivAt (pulse rl ru) d r) ∧
    (rl < r → r < ru → 0 < pulse rl ru r) ∧ (r ≤ rl ∨ ru ≤ r → pulse rl ru r = 0) := by
  refine ⟨profile_fin h r, ⟨_, slope_fin h r, hasDerivAt_pulse rl ru r⟩, fun h1 h2 => ?_, fun h1 => pulse_out (by
    rintro ⟨h2, h3⟩; rcases h1 with h1 | h1 <;> linarith)⟩
  have a1 : 0 < r - rl := by linarith
  have a2 : 0 < ru - r := by linarith
  have a3 : 0 < ru - rl := by linarith
  unfold pulse
  rw [if_pos ⟨h1, h2⟩]
  positivity

/-- C52, empty support: with `ru ≤ rl` the initial field and the slope vanish at every radius. -/
theorem C52_empty_support {rl ru : ℝ} (h : ru ≤ rl) (r : ℝ) :
    ID.profile (fin rl) (fin ru) (ID.width (fin rl) (fin ru)) (fin r) = fin 0 ∧
    ID.slope (fin rl) (fin ru) (ID.width (fin rl) (fin ru)) (fin r) = fin 0 := by
  obtain ⟨w, hw, hw0⟩ : ∃ w, ID.width (fin rl) (fin ru) = fin w ∧ w ≠ 0 := by
    unfold ID.width
    simp only [fin_sub, fin_fabs, fin_tenth, abs_abs]
    split
    · exact ⟨_, rfl, by positivity⟩
    · rename_i h1
      rw [fin_lt, not_lt] at h1
      exact ⟨_, rfl, (lt_of_lt_of_le (by positivity) h1).ne'⟩
  have hb : ¬(rl < r ∧ r < ru) := by rintro ⟨h1, h2⟩; linarith
  rw [hw]
  unfold ID.profile ID.slope
  rw [bump_fin, if_neg hb]
  simp only [fin_sub, fin_div _ _ hw0, fin_pown, fin_mul, fin_ofNat', fin_add, fin_inj]
  constructor <;> ring

/-- non-vacuity of C52: the documented default pulse (`rl=-0.9`, `ru=2.7`) at the horizon `r=0.9`. -/
example : (1:ℝ) / 10 ^ 14 ≤ 27/10 - (-9/10) ∧ 0 < pulse (-9/10) (27/10) (9/10) :=
  ⟨by norm_num, (C52_profile_and_slope (by norm_num) _).2.2.1 (by norm_num) (by norm_num)⟩

/-! ## C53, C54: amplitude and direction -/

/-- a loop that raises a maximum -/
theorem forRange_max {n : ℕ} {b : ℕ → CR → Exec CR} (S : ℕ → Set ℝ)
    (hb : ∀ i m, i < n → 0 ≤ m → ∃ m', b i (fin m) = .ok (fin m') ∧ m ≤ m' ∧ (∀ x ∈ S i, x ≤ m') ∧ (m' = m ∨ m' ∈ S i))
    (m : ℝ) (hm : 0 ≤ m) : ∃ m', forRange 0 n (fin m) b = .ok (fin m') ∧ m ≤ m' ∧ (∀ i, i < n → ∀ x ∈ S i, x ≤ m') ∧
      (m' = m ∨ ∃ i, i < n ∧ m' ∈ S i) := by
  obtain ⟨s', h1, m', h2, h3, h4, h5⟩ := forRange_inv (lo := 0) (hi := n) (s := fin m) (b := b)
    (fun i s => ∃ m', s = fin m' ∧ m ≤ m' ∧ (∀ j, j < i → ∀ x ∈ S j, x ≤ m') ∧ (m' = m ∨ ∃ j, j < n ∧ m' ∈ S j)) (Nat.zero_le _)
    ⟨m, rfl, le_refl _, fun j hj => by omega, Or.inl rfl⟩ (by
      rintro i s _ hi ⟨m1, rfl, a1, a2, a3⟩
      obtain ⟨m2, b1, b2, b3, b4⟩ := hb i m1 hi (hm.trans a1)
      refine ⟨_, b1, m2, rfl, a1.trans b2, fun j hj x hx => ?_, ?_⟩
      · by_cases hji : j = i
        · subst hji; exact b3 x hx
        · exact (a2 j (by omega) x hx).trans b2
      · rcases b4 with b4 | b4
        · rw [b4]; exact a3
        · exact Or.inr ⟨i, hi, b4⟩)
  exact ⟨m', by rw [h1, h2], h3, h4, h5⟩

theorem maxLoop_fin (A B C : ℕ) (u : ℕ → ℕ → ℕ → ℝ) : ∃ m, ID.maxLoop A B C (fun ix it ip => fin (u ix it ip)) = .ok (fin m) ∧ 0 ≤ m ∧
    (∀ ix it ip, ix < A → it < C → ip < B → |u ix it ip| ≤ m) ∧ (m = 0 ∨ ∃ ix it ip, ix < A ∧ it < C ∧ ip < B ∧ |u ix it ip| = m) := by
  obtain ⟨m, h1, h2, h3, h4⟩ := forRange_max (n := A) (b := fun ix m => forRange 0 B m fun ip m => forRange 0 C m fun it m =>
    .ok (if lt m (fabs (fin (u ix it ip))) then fabs (fin (u ix it ip)) else m))
    (fun ix => {x | ∃ ip, ip < B ∧ x ∈ {x | ∃ it, it < C ∧ x ∈ ({|u ix it ip|} : Set ℝ)}}) (by
      intro ix m _ hm
      obtain ⟨m', e, a1, a2, a3⟩ := forRange_max (n := B) (b := fun ip m => forRange 0 C m fun it m =>
        .ok (if lt m (fabs (fin (u ix it ip))) then fabs (fin (u ix it ip)) else m))
        (fun ip => {x | ∃ it, it < C ∧ x ∈ ({|u ix it ip|} : Set ℝ)}) (by
          intro ip m _ hm
          obtain ⟨m', e, a1, a2, a3⟩ := forRange_max (n := C) (b := fun it m =>
            (.ok (if lt m (fabs (fin (u ix it ip))) then fabs (fin (u ix it ip)) else m) : Exec CR)) (fun it => ({|u ix it ip|} : Set ℝ)) (by
              intro it m _ hm
              by_cases h : m < |u ix it ip|
              · refine ⟨|u ix it ip|, by rw [if_pos (by simpa using h)]; rfl, h.le, ?_, Or.inr rfl⟩
                rintro x rfl; exact le_refl _
              · refine ⟨m, by rw [if_neg (by simpa using h)], le_refl _, ?_, Or.inl rfl⟩
                rintro x rfl; exact not_lt.mp h) m hm
          refine ⟨m', e, a1, ?_, a3⟩
          rintro x ⟨it, hit, hx⟩
          exact a2 it hit x hx) m hm
      refine ⟨m', e, a1, ?_, a3⟩
      rintro x ⟨it, hit, hx⟩
      exact a2 it hit x hx) 0 (le_refl _)
  refine ⟨m, ?_, h2, ?_, ?_⟩
  · unfold ID.maxLoop
    rw [fin_ofNat_zero]
    exact h1
  · intro ix it ip hx ht hp
    exact h3 ix hx _ ⟨ip, hp, it, ht, rfl⟩
  · rcases h4 with h4 | ⟨ix, hx, ip, hp, it, ht, rfl⟩
    · exact Or.inl h4
    · exact Or.inr ⟨ix, it, ip, hx, ht, hp, rfl⟩

theorem codeR_fin {L : ℝ} (hL : L ≠ 0) (R : ℝ) : Grid.R_to_r (fin L) (fin R) = fin (codeR L R) := by
  unfold Grid.R_to_r codeR
  simp only [fin_sub, fin_fabs, fin_tenth]
  by_cases h : 1 / 10 ^ 16 < |R - L|
  · rw [if_pos (by simpa using h), if_pos h]
    have h1 : 1 - R / L ≠ 0 := by
      intro h0
      have : R = L := by field_simp at h0; linarith
      rw [this] at h
      simp at h
      exact absurd h (not_lt.mpr (by positivity))
    simp only [fin_ofNat_one, fin_div _ _ hL, fin_sub, fin_div _ _ h1]
    rfl
  · rw [if_neg (by simpa using h), if_neg h]
    simp

theorem velocity_fin (d : List Char) (y : ℝ) : ID.velocity d (fin y) = fin (dirSign d * y) := by
  unfold ID.velocity dirSign
  split
  · simp
  · split
    · simp
    · split <;> simp

variable {E : Env CR} {P : ParamRec CR} {g : Grid CR} {q : Phys} {x : ℕ → ℝ} {A : ℕ → ℕ → ℕ → ℝ}

/-- C53, C54: the routine succeeds on arrays of the right size and there is one scale factor `s` such that, at every grid point
except those of the last radial index, the field is `s` times the pulse times the harmonic, and the velocity is `s` times (plus,
minus or zero times, according to the direction keyword) the derivative of the pulse times the harmonic; at the last radial index
both old values are multiplied by `s`.  If the unscaled pulse exceeds `1e-16` somewhere then the largest value of `|f|` over those
points is `|amp|` and `s` has the sign of the amplitude (at the largest point `s·|pulse·Y| = amp`); otherwise nothing is rescaled and `|f|≤1e-16` there. -/
theorem C54_initial_values (hS : BuiltGrid E P g) (hq : q.Is P) (hE : E.Exact P.nx P.nl P.nm P.nlat P.nphi x A) (hL : q.L ≠ 0)
    {amp rl ru : ℝ} {l m : ℕ} (hP : PulseParams P amp rl ru l m) (J : Junk (Cx CR)) {f p : List CR}
    (hf : f.length = P.nx * P.nlat * P.nphi) (hp : p.length = P.nx * P.nlat * P.nphi) :
    ∃ (f' p' : List CR) (s : ℝ) (D : ℝ → ℝ), ID.compact_pulse P g J f p = .ok (f', p') ∧ f'.length = f.length ∧ p'.length = p.length ∧
      (∀ r, HasDerivAt (pulse rl ru) (D r) r) ∧
      (∀ ix it ip, ix + 1 < P.nx → it < P.nlat → ip < P.nphi →
        g.d.at3 f' ix it ip = fin (s * (pulse rl ru (codeR q.L (radPt E.useCheb P.nx q.lo q.up ix))
          * realY l m (Real.arccos (x it)) (phiN P.nphi ip))) ∧
        g.d.at3 p' ix it ip = fin (s * (dirSign P.direction * D (codeR q.L (radPt E.useCheb P.nx q.lo q.up ix))
          * realY l m (Real.arccos (x it)) (phiN P.nphi ip)))) ∧
      (∀ it ip, it < P.nlat → ip < P.nphi → g.d.at3 f' (P.nx - 1) it ip = g.d.at3 f (P.nx - 1) it ip * fin s ∧
        g.d.at3 p' (P.nx - 1) it ip = g.d.at3 p (P.nx - 1) it ip * fin s) ∧
      ((∃ ix it ip, ix + 1 < P.nx ∧ it < P.nlat ∧ ip < P.nphi ∧
          1 / 10 ^ 16 < |pulse rl ru (codeR q.L (radPt E.useCheb P.nx q.lo q.up ix)) * realY l m (Real.arccos (x it)) (phiN P.nphi ip)|) →
        (∀ ix it ip, ix + 1 < P.nx → it < P.nlat → ip < P.nphi → ∃ y, g.d.at3 f' ix it ip = fin y ∧ |y| ≤ |amp|) ∧
        (∃ ix it ip y, ix + 1 < P.nx ∧ it < P.nlat ∧ ip < P.nphi ∧ g.d.at3 f' ix it ip = fin y ∧ |y| = |amp| ∧
          s * |pulse rl ru (codeR q.L (radPt E.useCheb P.nx q.lo q.up ix)) * realY l m (Real.arccos (x it)) (phiN P.nphi ip)| = amp)) ∧
      ((∀ ix it ip, ix + 1 < P.nx → it < P.nlat → ip < P.nphi →
          |pulse rl ru (codeR q.L (radPt E.useCheb P.nx q.lo q.up ix)) * realY l m (Real.arccos (x it)) (phiN P.nphi ip)| ≤ 1 / 10 ^ 16) →
        s = 1) := by
  have hw := hS.wf
  have ht := hS.total
  have hd := hS.dims
  have hnx := hS.sizes.two
  have hlat : g.sphere.nlat = P.nlat := by rw [hw.nlat, hd]
  have hphi : g.sphere.nphi = P.nphi := by rw [hw.nphi, hd]
  have hm : g.sphere.sht.Math E.contig g.sphere.nlat g.sphere.nphi x A := by rw [hlat, hphi, hS.sht]; exact hE.math
  obtain ⟨w, e1, e2⟩ := C28_samples hw.sph hm J (l := l) (m := m) hP.m_le_l (by rw [hw.lmax, hd]; exact hP.l_le)
    (by rw [hw.mmax, hd]; exact hP.m_le)
  have hlW : l < W := by
    have := hS.sizes.nl_lt
    have := hP.l_le
    have : (2:ℕ) ^ 31 < W := by decide
    omega
  have hU : Sphere.toU P.l_ang = l ∧ Sphere.toU P.m_ang = m := by
    rw [hP.h_l, hP.h_m]
    have := hP.m_le_l
    unfold Sphere.toU
    rw [← Int.natCast_mod, ← Int.natCast_mod, Int.toNat_natCast, Int.toNat_natCast, Nat.mod_eq_of_lt hlW, Nat.mod_eq_of_lt (by omega)]
    exact ⟨rfl, rfl⟩
  have hwl : w.length = g.d.shell := by rw [e2.1, hlat, hphi, hd]; rfl
  -- angular factor
  have hY : ∀ it ip, it < P.nlat → ip < P.nphi → g.d.at2 w it ip = fin (realY l m (Real.arccos (x it)) (phiN P.nphi ip)) := by
    intro it ip h1 h2
    have := e2.2 it ip (by omega) (by omega)
    unfold Dims.at2
    rw [hw.ok.indx2 (by rw [hd]; exact h1) (by rw [hd]; exact h2)]
    have h3 : g.d.pos2 it ip = spos E.contig g.sphere.nlat g.sphere.nphi it ip := by
      rw [hd, hlat, hphi]; rfl
    rw [h3, this, hphi]
    unfold realY
    rfl
  have hr : ∀ ix, ix < P.nx → Grid.R_to_r g.cl (g.radial.ptV ix) = fin (codeR q.L (radPt E.useCheb P.nx q.lo q.up ix)) := by
    intro ix hx
    rw [hS.cl, hq.L, hS.radial, hq.lo, hq.up, radialOf_pt hnx.1 hnx.2 _ _ hx, codeR_fin hL]
  set r : ℕ → ℝ := fun ix => codeR q.L (radPt E.useCheb P.nx q.lo q.up ix) with hrdef
  set Y : ℕ → ℕ → ℝ := fun it ip => realY l m (Real.arccos (x it)) (phiN P.nphi ip) with hYdef
  have hfV : ∀ ix it ip, ix < P.nx → it < P.nlat → ip < P.nphi → ID.fV P g w ix it ip = fin (pulse rl ru (r ix) * Y it ip) := by
    intro ix it ip a b c
    unfold ID.fV
    rw [hr ix a, hP.h_rl, hP.h_ru, profile_fin hP.width, hY it ip b c, fin_mul]
  have hpV : ∀ ix it ip, ix < P.nx → it < P.nlat → ip < P.nphi →
      ID.pV P g w ix it ip = fin (dirSign P.direction * pulseD rl ru (r ix) * Y it ip) := by
    intro ix it ip a b c
    unfold ID.pV
    rw [hr ix a, hP.h_rl, hP.h_ru, slope_fin hP.width, velocity_fin, hY it ip b c, fin_mul]
  obtain ⟨mx, m1, m2, m3, m4⟩ := maxLoop_fin (P.nx - 1) P.nphi P.nlat fun ix it ip => pulse rl ru (r ix) * Y it ip
  have hmx : ID.maxLoop (g.d.nx - 1) g.d.nphi g.d.nlat (ID.fV P g w) = .ok (fin mx) := by
    rw [← m1, hd]
    unfold ID.maxLoop
    refine forRange_congr fun ix s _ hx => forRange_congr fun ip s _ hp => forRange_congr fun it s _ ht => ?_
    dsimp only at hx hp ht
    rw [hfV ix it ip (by omega) ht hp]
  have key := ID.compact_pulse_eq hw P J (f := f) (p := p) (ylm := w) (by rw [hU.1, hU.2]; exact e1) hwl (hf.trans ht.symm)
    (hp.trans ht.symm) hmx
  have hnxd : g.d.nx = P.nx := by rw [hd]
  -- the scale
  obtain ⟨s, hs1, hs2, hs3⟩ : ∃ s : ℝ, (∀ v : CR, (if lt (tenth 16) (fabs (fin mx)) then v * (P.amp / fin mx) else v) = v * fin s) ∧
      (1 / 10 ^ 16 < mx → s = amp / mx) ∧ (mx ≤ 1 / 10 ^ 16 → s = 1) := by
    by_cases h : 1 / 10 ^ 16 < mx
    · have h0 : mx ≠ 0 := (lt_trans (by positivity) h).ne'
      refine ⟨amp / mx, fun v => ?_, fun _ => rfl, fun h' => absurd h (not_lt.mpr h')⟩
      rw [if_pos (by simp [abs_of_nonneg m2]; simpa using h), hP.h_amp, fin_div _ _ h0]
    · refine ⟨1, fun v => ?_, fun h' => absurd h' h, fun _ => rfl⟩
      rw [if_neg (by simp [abs_of_nonneg m2]; simpa using h)]
      cases v with
      | bad => rfl
      | fin v => simp
  have hin : ∀ ix it ip, ix < P.nx → it < P.nlat → ip < P.nphi → g.d.InR ix it ip := fun ix it ip a b c => hS.inR a b c
  have hv : ∀ ix it ip, ix + 1 < P.nx → it < P.nlat → ip < P.nphi →
      (g.d.at3 (g.d.mk3 fun ix it ip => (fun v => if lt (tenth 16) (fabs (fin mx)) then v * (P.amp / fin mx) else v)
          (if ix < g.d.nx - 1 then ID.fV P g w ix it ip else g.d.at3 f ix it ip)) ix it ip = fin (s * (pulse rl ru (r ix) * Y it ip))) := by
    intro ix it ip a b c
    rw [hw.ok.at3_mk3 (hin ix it ip (by omega) b c)]
    beta_reduce
    rw [hs1, if_pos (by omega), hfV ix it ip (by omega) b c, fin_mul, mul_comm]
  refine ⟨_, _, s, pulseD rl ru, key, by simp [hf, ht], by simp [hp, ht], hasDerivAt_pulse rl ru, ?_, ?_, ?_, ?_⟩
  · intro ix it ip a b c
    refine ⟨hv ix it ip a b c, ?_⟩
    rw [hw.ok.at3_mk3 (hin ix it ip (by omega) b c)]
    beta_reduce
    rw [hs1, if_pos (by omega), hpV ix it ip (by omega) b c, fin_mul, mul_comm]
  · intro it ip b c
    constructor
    · rw [hw.ok.at3_mk3 (hin _ it ip (by omega) b c)]
      beta_reduce
      rw [hs1, if_neg (by omega)]
    · rw [hw.ok.at3_mk3 (hin _ it ip (by omega) b c)]
      beta_reduce
      rw [hs1, if_neg (by omega)]
  · rintro ⟨ix0, it0, ip0, a, b, c, h⟩
    have hlt : 1 / 10 ^ 16 < mx := h.trans_le (m3 ix0 it0 ip0 (by omega) b c)
    have h0 : 0 < mx := lt_trans (by positivity) hlt
    have hsv := hs2 hlt
    have habs : ∀ z : ℝ, |s * z| = |amp| * (|z| / mx) := by
      intro z
      rw [hsv, abs_mul, abs_div, abs_of_pos h0]; ring
    constructor
    · intro ix it ip a b c
      refine ⟨_, hv ix it ip a b c, ?_⟩
      rw [habs]
      have : |pulse rl ru (r ix) * Y it ip| / mx ≤ 1 := (div_le_one h0).mpr (m3 ix it ip (by omega) b c)
      calc _ ≤ |amp| * 1 := by gcongr
        _ = _ := mul_one _
    · rcases m4 with m4 | ⟨ix, it, ip, a, b, c, m4⟩
      · exact absurd m4 h0.ne'
      · refine ⟨ix, it, ip, _, by omega, b, c, hv ix it ip (by omega) b c, ?_⟩
        refine ⟨by rw [habs, m4, div_self h0.ne', mul_one], ?_⟩
        rw [m4, hsv, div_mul_cancel₀ _ h0.ne']
  · intro h
    apply hs3
    rcases m4 with m4 | ⟨ix, it, ip, a, b, c, m4⟩
    · rw [m4]; positivity
    · rw [← m4]; exact h ix it ip (by omega) b c

/-- C53: starting from zero arrays, as main.cpp does, `|f|` is at most `|amp|` at every grid point and equal to it at one, if the
unscaled pulse exceeds `1e-16` at some initialised point; otherwise `|f|≤1e-16` everywhere. -/
theorem C53_initial_amplitude (hS : BuiltGrid E P g) (hq : q.Is P) (hE : E.Exact P.nx P.nl P.nm P.nlat P.nphi x A) (hL : q.L ≠ 0)
    {amp rl ru : ℝ} {l m : ℕ} (hP : PulseParams P amp rl ru l m) (J : Junk (Cx CR)) :
    ∃ (f' p' : List CR) (F : ℕ → ℕ → ℕ → ℝ), ID.compact_pulse P g J (List.replicate (P.nx * P.nlat * P.nphi) 0)
        (List.replicate (P.nx * P.nlat * P.nphi) 0) = .ok (f', p') ∧
      (∀ ix it ip, ix < P.nx → it < P.nlat → ip < P.nphi → g.d.at3 f' ix it ip = fin (F ix it ip)) ∧
      ((∃ ix it ip, ix + 1 < P.nx ∧ it < P.nlat ∧ ip < P.nphi ∧
          1 / 10 ^ 16 < |pulse rl ru (codeR q.L (radPt E.useCheb P.nx q.lo q.up ix)) * realY l m (Real.arccos (x it)) (phiN P.nphi ip)|) →
        (∀ ix it ip, ix < P.nx → it < P.nlat → ip < P.nphi → |F ix it ip| ≤ |amp|) ∧
        ∃ ix it ip, ix < P.nx ∧ it < P.nlat ∧ ip < P.nphi ∧ |F ix it ip| = |amp|) ∧
      ((∀ ix it ip, ix + 1 < P.nx → it < P.nlat → ip < P.nphi →
          |pulse rl ru (codeR q.L (radPt E.useCheb P.nx q.lo q.up ix)) * realY l m (Real.arccos (x it)) (phiN P.nphi ip)| ≤ 1 / 10 ^ 16) →
        ∀ ix it ip, ix < P.nx → it < P.nlat → ip < P.nphi → |F ix it ip| ≤ 1 / 10 ^ 16) := by
  have hnx := hS.sizes.two.1
  obtain ⟨f', p', s, D, h1, h2, h3, h4, h5, h6, h7, h8⟩ := C54_initial_values hS hq hE hL hP J
    (f := List.replicate (P.nx * P.nlat * P.nphi) 0) (p := List.replicate (P.nx * P.nlat * P.nphi) 0) (by simp) (by simp)
  have hz : ∀ it ip, it < P.nlat → ip < P.nphi → g.d.at3 f' (P.nx - 1) it ip = fin 0 := by
    intro it ip b c
    rw [(h6 it ip b c).1]
    have hl := hS.wf.ok.idx3_lt (hS.inR (show P.nx - 1 < P.nx by omega) b c)
    rw [hS.total] at hl
    unfold Dims.at3 gv
    rw [List.getElem?_replicate, if_pos hl]
    simp
  refine ⟨f', p', fun ix it ip => if ix + 1 < P.nx then s * (pulse rl ru (codeR q.L (radPt E.useCheb P.nx q.lo q.up ix))
          * realY l m (Real.arccos (x it)) (phiN P.nphi ip)) else 0, h1, ?_, ?_, ?_⟩
  · intro ix it ip a b c
    beta_reduce
    by_cases h : ix + 1 < P.nx
    · rw [if_pos h, (h5 ix it ip h b c).1]
    · rw [if_neg h]
      have : ix = P.nx - 1 := by omega
      rw [this]
      exact hz it ip b c
  · intro h
    obtain ⟨h9, ix, it, ip, y, a, b, c, d1, d2, _⟩ := h7 h
    constructor
    · intro ix it ip a b c
      beta_reduce
      split
      · rename_i h
        obtain ⟨y, e1, e2⟩ := h9 ix it ip h b c
        rw [(h5 ix it ip h b c).1, fin_inj] at e1
        rw [e1]; exact e2
      · rw [abs_zero]; exact abs_nonneg _
    · refine ⟨ix, it, ip, by omega, b, c, ?_⟩
      beta_reduce
      rw [if_pos a]
      rw [(h5 ix it ip a b c).1, fin_inj] at d1
      rw [d1]; exact d2
  · intro h ix it ip a b c
    beta_reduce
    split
    · rename_i h'
      rw [h8 h, one_mul]
      exact h ix it ip h' b c
    · rw [abs_zero]; positivity

/-! ## C55: which points are initialised -/

theorem chebPt_last {n : ℕ} (hn : 2 ≤ n) (lo up : ℝ) : chebPt n lo up (n - 1) = lo := by
  have h1 : ((n : ℝ) - 1) ≠ 0 := by
    have : (2 : ℝ) ≤ n := by exact_mod_cast hn
    linarith
  unfold chebPt
  rw [Nat.cast_sub (by omega), Nat.cast_one, mul_div_assoc, div_self h1, mul_one, Real.cos_pi]
  ring

/-- C55, finite differences (the outer boundary is `R=L`, as the launcher sets it): every grid point at finite radius receives a value
that does not depend on the previous contents of the arrays, and the points left out are exactly those at `R=L`, infinity. -/
theorem C55_initialised_partial (hS : BuiltGrid E P g) (hq : q.Is P) (hE : E.Exact P.nx P.nl P.nm P.nlat P.nphi x A)
    {amp rl ru : ℝ} {l m : ℕ} (hP : PulseParams P amp rl ru l m) (hfd : E.useCheb = false) (hup : q.up = q.L) (hlo : q.lo < q.up)
    (J : Junk (Cx CR)) {f p f2 p2 : List CR}
    (hf : f.length = P.nx * P.nlat * P.nphi) (hp : p.length = P.nx * P.nlat * P.nphi)
    (hf2 : f2.length = P.nx * P.nlat * P.nphi) (hp2 : p2.length = P.nx * P.nlat * P.nphi) :
    ∃ (a b a2 b2 : List CR) (R : ℕ → ℝ), ID.compact_pulse P g J f p = .ok (a, b) ∧ ID.compact_pulse P g J f2 p2 = .ok (a2, b2) ∧
      (∀ ix it ip, ix < P.nx → it < P.nlat → ip < P.nphi → ∃ θ φ, g.getR_th_ph ix it ip = .ok ⟨fin (R ix), θ, φ⟩) ∧
      (∀ ix it ip, ix < P.nx → it < P.nlat → ip < P.nphi → R ix < q.L →
        g.d.at3 a ix it ip = g.d.at3 a2 ix it ip ∧ g.d.at3 b ix it ip = g.d.at3 b2 ix it ip) ∧
      (∀ ix, ix < P.nx → (ix + 1 = P.nx ↔ R ix = q.L)) := by
  have hnx := hS.sizes.two.1
  have hR : ∀ ix, ix < P.nx → radPt E.useCheb P.nx q.lo q.up ix = q.L → ix + 1 = P.nx := by
    intro ix hx h
    unfold radPt at h
    rw [hfd] at h
    simp only [Bool.false_eq_true, if_false] at h
    by_contra hc
    have h1 : (0:ℝ) < (P.nx : ℝ) - 1 := by
      have : (2 : ℝ) ≤ P.nx := by exact_mod_cast hnx
      linarith
    have h2 : (ix : ℝ) < P.nx - 1 := by
      have : (ix : ℝ) + 1 < P.nx := by exact_mod_cast (by omega : ix + 1 < P.nx)
      linarith
    have h3 : (ix : ℝ) * ((q.up - q.lo) / ((P.nx : ℝ) - 1)) < q.up - q.lo := by
      calc (ix : ℝ) * ((q.up - q.lo) / ((P.nx : ℝ) - 1)) < (P.nx - 1) * ((q.up - q.lo) / ((P.nx : ℝ) - 1)) := by
            have : 0 < (q.up - q.lo) / ((P.nx : ℝ) - 1) := div_pos (by linarith) h1
            gcongr
        _ = _ := by field_simp
    rw [hup] at *
    linarith
  have hlast : radPt E.useCheb P.nx q.lo q.up (P.nx - 1) = q.L := by
    unfold radPt
    rw [hfd]
    have h1 : ((P.nx : ℝ) - 1) ≠ 0 := by
      have : (2 : ℝ) ≤ P.nx := by exact_mod_cast hnx
      linarith
    simp only [Bool.false_eq_true, if_false]
    rw [Nat.cast_sub (by omega), Nat.cast_one, ← mul_div_assoc, mul_div_cancel_left₀ _ h1, ← hup]
    ring
  -- the two scales agree because they depend on the pulse only
  have hw := hS.wf
  have ht := hS.total
  obtain ⟨w, e1, e2⟩ : ∃ w, g.compute_ylm J (Sphere.toU P.l_ang) (Sphere.toU P.m_ang) = .ok w ∧ w.length = g.d.shell := by
    have hlW : l < W := by
      have := hS.sizes.nl_lt
      have := hP.l_le
      have : (2:ℕ) ^ 31 < W := by decide
      omega
    have hU : Sphere.toU P.l_ang = l ∧ Sphere.toU P.m_ang = m := by
      rw [hP.h_l, hP.h_m]
      have := hP.m_le_l
      unfold Sphere.toU
      rw [← Int.natCast_mod, ← Int.natCast_mod, Int.toNat_natCast, Int.toNat_natCast, Nat.mod_eq_of_lt hlW, Nat.mod_eq_of_lt (by omega)]
      exact ⟨rfl, rfl⟩
    have hr : g.sphere.sht.Res l m := by
      refine ⟨hP.m_le_l, ?_, ?_⟩
      · rw [hw.sph.api.lmax_eq, hw.lmax, hS.dims]; exact hP.l_le
      · rw [hw.sph.api.mmax_eq, hw.mmax, hS.dims]; exact hP.m_le
    refine ⟨_, by rw [hU.1, hU.2]; exact hw.sph.compute_ylm_eq J hr, ?_⟩
    rw [hw.sph.api.len_shToSpat _ (by simp [Sphere.unitLM]), hw.sph.api.nspat_eq, hw.nlat, hw.nphi]
    rfl
  obtain ⟨mx, hmx⟩ := ID.maxLoop_ok (g.d.nx - 1) g.d.nphi g.d.nlat (ID.fV P g w)
  have k1 := ID.compact_pulse_eq hw P J (f := f) (p := p) e1 e2 (hf.trans ht.symm) (hp.trans ht.symm) hmx
  have k2 := ID.compact_pulse_eq hw P J (f := f2) (p := p2) e1 e2 (hf2.trans ht.symm) (hp2.trans ht.symm) hmx
  refine ⟨_, _, _, _, radPt E.useCheb P.nx q.lo q.up, k1, k2, fun ix it ip a b c => ⟨_, _, hS.coords hq hE a b c⟩, ?_, ?_⟩
  · intro ix it ip a b c hlt
    have hne : ix + 1 ≠ P.nx := by
      intro h
      have : ix = P.nx - 1 := by omega
      rw [this, hlast] at hlt
      exact lt_irrefl _ hlt
    have hr := hS.inR a b c
    have hnd : g.d.nx = P.nx := by rw [hS.dims]
    have hc : ix < g.d.nx - 1 := by omega
    rw [hw.ok.at3_mk3 hr, hw.ok.at3_mk3 hr, hw.ok.at3_mk3 hr, hw.ok.at3_mk3 hr]
    beta_reduce
    rw [if_pos hc, if_pos hc, if_pos hc, if_pos hc]
    exact ⟨rfl, rfl⟩
  · intro ix hx
    refine ⟨fun h => ?_, hR ix hx⟩
    have : ix = P.nx - 1 := by omega
    rw [this]; exact hlast

/-- C55 fails for the Chebyshev discretisation: its points run from the outer to the inner boundary, so the skipped radial index is the
*inner* boundary (the horizon, a finite radius), while the point at infinity is written.  Starting from zero arrays as main.cpp does,
field and velocity stay zero there whatever the pulse and the harmonic are at that point. -/
theorem C55_chebyshev_skips_horizon (hS : BuiltGrid E P g) (hq : q.Is P) (hE : E.Exact P.nx P.nl P.nm P.nlat P.nphi x A) (hL : q.L ≠ 0)
    {amp rl ru : ℝ} {l m : ℕ} (hP : PulseParams P amp rl ru l m) (hch : E.useCheb = true) (J : Junk (Cx CR)) :
    radPt E.useCheb P.nx q.lo q.up (P.nx - 1) = q.lo ∧
    ∃ f' p', ID.compact_pulse P g J (List.replicate (P.nx * P.nlat * P.nphi) 0)
        (List.replicate (P.nx * P.nlat * P.nphi) 0) = .ok (f', p') ∧
      ∀ it ip, it < P.nlat → ip < P.nphi → g.d.at3 f' (P.nx - 1) it ip = fin 0 ∧ g.d.at3 p' (P.nx - 1) it ip = fin 0 := by
  have hnx := hS.sizes.two.1
  obtain ⟨f', p', s, D, h1, h2, h3, h4, h5, h6, h7, h8⟩ := C54_initial_values hS hq hE hL hP J
    (f := List.replicate (P.nx * P.nlat * P.nphi) 0) (p := List.replicate (P.nx * P.nlat * P.nphi) 0) (by simp) (by simp)
  refine ⟨?_, f', p', h1, ?_⟩
  · unfold radPt
    rw [if_pos hch]
    exact chebPt_last hnx _ _
  · intro it ip b c
    rw [(h6 it ip b c).1, (h6 it ip b c).2]
    have hl := hS.wf.ok.idx3_lt (hS.inR (show P.nx - 1 < P.nx by omega) b c)
    rw [hS.total] at hl
    unfold Dims.at3 gv
    rw [List.getElem?_replicate, if_pos hl]
    simp

theorem demo_pulse : PulseParams demoP (1/2) (-9/10) (27/10) 2 1 where
  h_amp := rfl
  h_rl := rfl
  h_ru := rfl
  width := by norm_num
  h_l := rfl
  h_m := rfl
  m_le_l := by decide
  l_le := by decide
  m_le := by decide

/-- non-vacuity of C53, C54, C55: the concrete set-up in both discretisations, with the horizon at a radius where the pulse is positive. -/
example (useCheb : Bool) : ∃ (E : Env CR) (x : ℕ → ℝ) (A : ℕ → ℕ → ℕ → ℝ) (g : Grid CR), E.useCheb = useCheb ∧ Setup E demoP g ∧
    demoQ.Is demoP ∧ E.Exact demoP.nx demoP.nl demoP.nm demoP.nlat demoP.nphi x A ∧ demoQ.L ≠ 0 ∧
    PulseParams demoP (1/2) (-9/10) (27/10) 2 1 ∧ demoQ.up = demoQ.L ∧ demoQ.lo < demoQ.up ∧
    physR demoQ.L demoQ.lo = 9/10 ∧ 0 < pulse (-9/10) (27/10) (physR demoQ.L demoQ.lo) := by
  obtain ⟨E, x, A, g, e, _, _, h3, h4, h5, _, _⟩ := demo_setup false true useCheb
  have hp : physR demoQ.L demoQ.lo = 9/10 := by simp only [demoQ, physR, compR]; norm_num
  refine ⟨E, x, A, g, h3, h5, demo_is, h4, by simp [demoQ], demo_pulse, rfl, ?_, hp, ?_⟩
  · simp only [demoQ, compR]; norm_num
  · rw [hp]
    exact (C52_profile_and_slope (by norm_num) _).2.2.1 (by norm_num) (by norm_num)

end SFK
