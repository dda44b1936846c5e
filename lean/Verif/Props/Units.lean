import Verif.Lemmas.Rescale
import Verif.Props.InitialData
import Verif.Props.Symmetry
import Verif.Lemmas.Run
import Verif.Spec.Run
import Mathlib.Analysis.Complex.ExponentialBounds
/-
C103: change of the unit of length.
-/
namespace SFK
open Scalar CR Kerr

section
variable {E : Env CR} {P₁ P₂ : ParamRec CR} {g₁ g₂ : Grid CR} {q : Phys} {s : ℝ} {x : ℕ → ℝ} {A : ℕ → ℕ → ℕ → ℝ} {e₁ e₂ : Eom CR}

theorem Scaled.rel {n : ℕ} {c : ℝ} {v w : List CR} (h : Scaled c v w) (hv : v.length = n) (hf : AllFin v) : RelF n (fun i => i) c v w := by
  obtain ⟨y, hy⟩ := hf.isF hv
  refine ⟨y, hy, h.1.trans hv, fun i hi => ?_⟩
  rw [h.2 i (hv ▸ hi), hy.2 i hi, fin_mul]

theorem RelF.scaled {n : ℕ} {c : ℝ} {v w : List CR} (h : RelF n (fun i => i) c v w) : Scaled c v w := by
  obtain ⟨y, a1, a2⟩ := h
  refine ⟨a2.1.trans a1.1.symm, fun i hi => ?_⟩
  rw [a1.1] at hi
  rw [a1.2 i hi, a2.2 i hi, fin_mul]

theorem RelF.same {n : ℕ} {v w : List CR} (h : RelF n (fun i => i) 1 v w) : w = v := by
  obtain ⟨y, k1, k2⟩ := h
  exact (k2.congr (w := y) fun i _ => one_mul _).ext k1

theorem AllFin.same {n : ℕ} {v : List CR} (h : AllFin v) (hv : v.length = n) : RelF n (fun i => i) 1 v v := by
  obtain ⟨y, hy⟩ := h.isF hv
  exact ⟨y, hy, hy.congr fun i _ => (one_mul _).symm⟩

theorem SameSizes.size (hz : SameSizes P₁ P₂) : P₂.nx * P₂.nlat * P₂.nphi = P₁.nx * P₁.nlat * P₁.nphi := by
  rw [hz.1, hz.2.2.2.1, hz.2.2.2.2]

/-- C103, evolution: the same system in another unit of length evolves in the same way.  After any number of steps (as long as the first
run stays finite) the field is the same and the velocity is divided by `s`, whatever the uninitialised memory holds.  The hypothesis `hc`
keeps the lengths that the code compares with the absolute number `1e-16` on the same side of it in both units. -/
theorem C103_rescaled_evolution (h₁ : Exact E P₁ g₁ q x A) (h₂ : Exact E P₂ g₂ (q.rescale s) x A) (hs : 0 < s) (hz : SameSizes P₁ P₂)
    (hc : q.Clear s E.useCheb P₁.nx) (he₁ : Eom.Of g₁ P₁ e₁) (he₂ : Eom.Of g₂ P₂ e₂) (J₁ J₂ : ℕ → Junk (Cx CR)) {f₁ p₁ f₂ p₂ : Field CR}
    (hf₁ : f₁.Sized (P₁.nx * P₁.nlat * P₁.nphi)) (hp₁ : p₁.Sized (P₁.nx * P₁.nlat * P₁.nphi))
    (hf₂ : f₂.Sized (P₂.nx * P₂.nlat * P₂.nphi)) (hp₂ : p₂.Sized (P₂.nx * P₂.nlat * P₂.nphi)) (N : ℕ)
    (hF : f₂.n = f₁.n) (hQ : Scaled s⁻¹ p₁.n p₂.n) (hfin : StaysFinite g₁ e₁ f₁ p₁ N) :
    ∃ a₁ a₂ F₁ F₂ Q₁ Q₂, evolve g₁ J₁ e₁ f₁ p₁ N = .ok (a₁, F₁, Q₁) ∧ evolve g₂ J₂ e₂ f₂ p₂ N = .ok (a₂, F₂, Q₂) ∧
      F₂.n = F₁.n ∧ Scaled s⁻¹ Q₁.n Q₂.n := by
  have ht := h₁.setup.total
  have hev := fun j hj => hfin.evoP h₁.setup he₁ hf₁ hp₁ j hj
  obtain ⟨s1, F₁, Q₁, a1, _, _, _, a5, a6⟩ := evolve_eq h₁.setup he₁ J₁ hf₁ hp₁ N
  obtain ⟨s2, F₂, Q₂, b1, _, _, _, b5, b6⟩ := evolve_eq h₂.setup he₂ J₂ hf₂ hp₂ N
  have t := twin_scale h₁ h₂ hs hz hc he₁ he₂
  obtain ⟨k1, k2⟩ := t.evo (F₂ := f₂.n) (Q₂ := p₂.n) (by rw [hF]; exact (hev 0 (Nat.zero_le _)).1.same (hf₁.1.trans ht.symm))
    (hQ.rel (hp₁.1.trans ht.symm) (hev 0 (Nat.zero_le _)).2) N hev
  refine ⟨_, _, F₁, F₂, Q₁, Q₂, a1, b1, ?_, ?_⟩
  · rw [a5, b5]; exact k1.same
  · rw [a6, b6]; exact k2.scaled

theorem rhoVal_scale (h₁ : Exact E P₁ g₁ q x A) (h₂ : Exact E P₂ g₂ (q.rescale s) x A) (he₁ : Eom.Of g₁ P₁ e₁)
    (he₂ : Eom.Of g₂ P₂ e₂) {c d : Coef CR} (hcd : CoefScale s c d) (f p r ph X : ℝ) :
    e₂.rhoVal d (fin f) (fin (s⁻¹ * p)) (fin (s⁻¹ * r)) (fin ph) (fin X) = fin (s⁻¹ ^ 2) * e₁.rhoVal c (fin f) (fin p) (fin r) (fin ph) (fin X) := by
  have hk : e₂.kVal (fin f) = e₁.kVal (fin f) := by
    obtain ⟨a1, a2, a3, a4, a5, a6, a7, _⟩ := he₁.par h₁.setup h₁.phys
    obtain ⟨b1, b2, b3, b4, b5, b6, b7, _⟩ := he₂.par h₂.setup h₂.phys
    unfold Eom.kVal
    rw [a1, a2, a3, a4, b1, b2, b3, b4]
    rfl
  have hv : (q.rescale s).pot f = s⁻¹ ^ 2 * q.pot f := by
    unfold Phys.pot Kerr.pot Phys.rescale
    dsimp only
    rw [inv_pow]
    ring
  unfold Eom.rhoVal
  rw [hk, he₁.vVal h₁.setup h₁.phys, he₂.vVal h₂.setup h₂.phys, hv, hcd.rho_vv, hcd.rho_vr, hcd.rho_rr, hcd.rho_rphi, hcd.rho_sphereX]
  generalize e₁.kVal (fin f) = k
  generalize c.rho_vv = c1
  generalize c.rho_vr = c2
  generalize c.rho_rr = c3
  generalize c.rho_rphi = c4
  generalize c.rho_sphereX = c5
  have h12 : (1 / 2 : CR) = fin (1 / 2) := by rw [fin_ofNat_one, fin_ofNat', fin_div _ _ (by norm_num)]
  rw [h12]
  cases k with
  | bad => simp
  | fin k =>
    cases c1 with
    | bad => simp
    | fin c1 =>
      cases c2 with
      | bad => simp
      | fin c2 =>
        cases c3 with
        | bad => simp
        | fin c3 =>
          cases c4 with
          | bad => simp
          | fin c4 =>
            cases c5 with
            | bad => simp
            | fin c5 =>
              simp only [fin_pown, fin_mul, fin_add, fin_inj]
              ring

theorem rhoP_scale (h₁ : Exact E P₁ g₁ q x A) (h₂ : Exact E P₂ g₂ (q.rescale s) x A) (hs : 0 < s) (hz : SameSizes P₁ P₂)
    (hc : q.Clear s E.useCheb P₁.nx) (he₁ : Eom.Of g₁ P₁ e₁) (he₂ : Eom.Of g₂ P₂ e₂) {f p₁ p₂ : List CR} (hf : AllFin f)
    (hfl : f.length = g₁.d.total) (hp : RelF g₁.d.total (fun i => i) s⁻¹ p₁ p₂) :
    Scaled (s⁻¹ ^ 2) (e₁.rhoP g₁ f p₁) (e₂.rhoP g₂ f p₂) := by
  obtain ⟨hd, n1, n2, n3, n4⟩ := ang_same h₁.setup.toBuiltGrid h₂.setup.toBuiltGrid hz
  obtain ⟨pr, p2r, ⟨a1, b1⟩, a2, c1, c2⟩ := pr_scale h₁ h₂ hs.ne' hz
  obtain ⟨_, _, ph, lap, fl, o⟩ := h₁.ops
  obtain ⟨X, x1, _, _⟩ := h₁.opX
  obtain ⟨y, hy⟩ := hf.isF hfl
  obtain ⟨z, hz1, hz2⟩ := hp
  refine ⟨by simp [hd], fun i hi => ?_⟩
  rw [Eom.rhoP_length] at hi
  have cs := coef_scale h₁ h₂ hs hz hc he₁ he₂ hi
  unfold Eom.rhoP
  rw [hd, gv_tab hi, gv_tab hi, n1, n3, hy.2 i hi, hz1.2 i hi, hz2.2 i hi, (a1 _ _ hy).2 i hi, (c1 _ _ hy).2 i hi, (o.ph.1 _ _ hy).2 i hi,
    (x1 _ _ hy).2 i hi]
  exact rhoVal_scale h₁ h₂ he₁ he₂ cs _ _ _ _ _

/-- C103, energy density: in the other unit the density is divided by `s²` everywhere. -/
theorem C103_rescaled_density (h₁ : Exact E P₁ g₁ q x A) (h₂ : Exact E P₂ g₂ (q.rescale s) x A) (hs : 0 < s) (hz : SameSizes P₁ P₂)
    (hc : q.Clear s E.useCheb P₁.nx) (he₁ : Eom.Of g₁ P₁ e₁) (he₂ : Eom.Of g₂ P₂ e₂) (J₁ J₂ : Junk (Cx CR)) {f p₁ p₂ z₁ z₂ : List CR}
    (hf : f.length = P₁.nx * P₁.nlat * P₁.nphi) (hp : p₁.length = P₁.nx * P₁.nlat * P₁.nphi)
    (hz₁ : z₁.length = P₁.nx * P₁.nlat * P₁.nphi) (hz₂ : z₂.length = P₁.nx * P₁.nlat * P₁.nphi)
    (hF : AllFin f) (hP : AllFin p₁) (hQ : Scaled s⁻¹ p₁ p₂) :
    ∃ a₁ a₂ D₁ D₂, e₁.set_rho g₁ J₁ f p₁ z₁ = .ok (a₁, D₁) ∧ e₂.set_rho g₂ J₂ f p₂ z₂ = .ok (a₂, D₂) ∧ Scaled (s⁻¹ ^ 2) D₁ D₂ := by
  have ht := h₁.setup.total
  have ht2 := h₂.setup.total.trans hz.size
  refine ⟨_, _, _, _, Eom.set_rho_eq h₁.setup.wf (he₁.wf h₁.setup) J₁ (hf.trans ht.symm) (hp.trans ht.symm) (hz₁.trans ht.symm),
    Eom.set_rho_eq h₂.setup.wf (he₂.wf h₂.setup) J₂ (hf.trans ht2.symm) ((hQ.1.trans hp).trans ht2.symm) (hz₂.trans ht2.symm), ?_⟩
  exact rhoP_scale h₁ h₂ hs hz hc he₁ he₂ hF (hf.trans ht.symm) (hQ.rel (hp.trans ht.symm) hP)

/-! ### Initial data -/

theorem pulse_scale (hs : 0 < s) (rl ru r : ℝ) : pulse (s * rl) (s * ru) (s * r) = pulse rl ru r := by
  have hs' := hs.ne'
  unfold pulse
  simp only [mul_lt_mul_iff_right₀ hs, ← mul_sub, mul_div_mul_left _ _ hs']
  have e2 : 2 * (s * (ru - rl)) / (s * (ru - r)) = 2 * (ru - rl) / (ru - r) := by
    rw [mul_left_comm, mul_div_mul_left _ _ hs']
  rw [e2]

theorem pulse_slope_scale (hs : 0 < s) {rl ru r d d' : ℝ} (h : HasDerivAt (pulse rl ru) d r)
    (h' : HasDerivAt (pulse (s * rl) (s * ru)) d' (s * r)) : d' = s⁻¹ * d := by
  have h2 : HasDerivAt (fun r => pulse (s * rl) (s * ru) (s * r)) (d' * s) r := by
    have h0 : HasDerivAt (fun r : ℝ => s * r) s r := ((hasDerivAt_id r).const_mul s).congr_deriv (mul_one s)
    exact h'.comp r h0
  have h3 : (fun r => pulse (s * rl) (s * ru) (s * r)) = pulse rl ru := by funext r; exact pulse_scale hs _ _ _
  rw [h3] at h2
  have := h.unique h2
  rw [this]
  field_simp

theorem pulse_far {rl ru r d : ℝ} (hr : ru ≤ r) (h : HasDerivAt (pulse rl ru) d r) : pulse rl ru r = 0 ∧ d = 0 := by
  have h0 : ∀ t, 0 ≤ pulse rl ru t := by
    intro t
    unfold pulse
    split_ifs with hc
    · obtain ⟨c1, c2⟩ := hc
      have : 0 < ru - rl := by linarith
      have h1 : 0 < t - rl := by linarith
      have h2 : 0 < ru - t := by linarith
      positivity
    · exact le_refl _
  have he : pulse rl ru r = 0 := pulse_out (by rintro ⟨_, h⟩; linarith)
  refine ⟨he, ?_⟩
  have hm : IsLocalMin (pulse rl ru) r := Filter.Eventually.of_forall fun t => by rw [he]; exact h0 t
  exact hm.hasDerivAt_eq_zero h

theorem codeR_scale (hs : 0 < s) {L R : ℝ} (h : Clear s (R - L)) :
    (R ≠ L ∧ codeR (s * L) (s * R) = s * codeR L R) ∨ (codeR (s * L) (s * R) = 10 ^ 12 ∧ codeR L R = 10 ^ 12) := by
  rcases h with h | ⟨h1, h2⟩
  · right
    have hR : R = L := by linarith
    subst hR
    unfold codeR
    simp
  · left
    have hRL : R ≠ L := by
      rintro rfl
      simp at h1
      exact absurd h1 (not_lt.mpr (by positivity))
    refine ⟨hRL, ?_⟩
    unfold codeR physR
    rw [if_pos h1, ← mul_sub, abs_mul, abs_of_pos hs, if_pos h2, mul_div_mul_left _ _ hs.ne', mul_div_assoc]

/-- pulse and slope at corresponding points -/
theorem pulse_code_scale (hs : 0 < s) {rl ru L R : ℝ} {D D' : ℝ → ℝ} (hD : ∀ r, HasDerivAt (pulse rl ru) (D r) r)
    (hD' : ∀ r, HasDerivAt (pulse (s * rl) (s * ru)) (D' r) r) (h : Clear s (R - L)) (h1 : ru ≤ 10 ^ 12) (h2 : s * ru ≤ 10 ^ 12) :
    pulse (s * rl) (s * ru) (codeR (s * L) (s * R)) = pulse rl ru (codeR L R) ∧ D' (codeR (s * L) (s * R)) = s⁻¹ * D (codeR L R) := by
  rcases codeR_scale hs h with ⟨_, e⟩ | ⟨e1, e2⟩
  · rw [e]
    exact ⟨pulse_scale hs _ _ _, pulse_slope_scale hs (hD _) (hD' _)⟩
  · rw [e1, e2]
    obtain ⟨a1, a2⟩ := pulse_far h1 (hD (10 ^ 12))
    obtain ⟨b1, b2⟩ := pulse_far h2 (hD' (10 ^ 12))
    rw [a1, a2, b1, b2]
    simp

/-- C103, initial data: the same pulse in another unit of length (inner and outer radius multiplied by `s`, same amplitude, harmonic and
direction) is the same field, with the velocity divided by `s`.  The pulse must end before the radius `10¹²` that the code uses for
infinity. -/
theorem C103_rescaled_pulse (h₁ : Exact E P₁ g₁ q x A) (h₂ : Exact E P₂ g₂ (q.rescale s) x A) (hs : 0 < s) (hz : SameSizes P₁ P₂)
    (hc : q.Clear s E.useCheb P₁.nx) {amp rl ru : ℝ} {l m : ℕ} (hP₁ : PulseParams P₁ amp rl ru l m)
    (hP₂ : PulseParams P₂ amp (s * rl) (s * ru) l m) (hdir : P₂.direction = P₁.direction) (hr₁ : ru ≤ 10 ^ 12) (hr₂ : s * ru ≤ 10 ^ 12)
    (J₁ J₂ : Junk (Cx CR)) {f p₁ p₂ : List CR} (hf : f.length = P₁.nx * P₁.nlat * P₁.nphi) (hp₁ : p₁.length = P₁.nx * P₁.nlat * P₁.nphi)
    (hp : Scaled s⁻¹ p₁ p₂) :
    ∃ F Q₁ Q₂, ID.compact_pulse P₁ g₁ J₁ f p₁ = .ok (F, Q₁) ∧ ID.compact_pulse P₂ g₂ J₂ f p₂ = .ok (F, Q₂) ∧ Scaled s⁻¹ Q₁ Q₂ := by
  have hd := (ang_same h₁.setup.toBuiltGrid h₂.setup.toBuiltGrid hz).1
  have hp₂ : p₂.length = P₂.nx * P₂.nlat * P₂.nphi := by rw [hp.1, hp₁, hz.size]
  obtain ⟨F₁, Q₁, a, D₁, u1, u2, u3, u4, u5, u6, u7, u8⟩ := C54_initial_values h₁.setup.toBuiltGrid h₁.phys h₁.env h₁.L0 hP₁ J₁ hf hp₁
  obtain ⟨F₂, Q₂, b, D₂, v1, v2, v3, v4, v5, v6, v7, v8⟩ := C54_initial_values h₂.setup.toBuiltGrid h₂.phys h₂.env h₂.L0 hP₂ J₂
    (hf.trans hz.size.symm) hp₂
  rw [hz.1, hz.2.2.2.1, hz.2.2.2.2, hdir] at v5
  rw [hz.1, hz.2.2.2.1, hz.2.2.2.2] at v6 v7 v8
  dsimp only [Phys.rescale] at v5 v7 v8
  have key : ∀ ix, ix < P₁.nx →
      pulse (s * rl) (s * ru) (codeR (s * q.L) (radPt E.useCheb P₁.nx (s * q.lo) (s * q.up) ix)) = pulse rl ru (codeR q.L (radPt E.useCheb P₁.nx q.lo q.up ix)) ∧
      D₂ (codeR (s * q.L) (radPt E.useCheb P₁.nx (s * q.lo) (s * q.up) ix)) = s⁻¹ * D₁ (codeR q.L (radPt E.useCheb P₁.nx q.lo q.up ix)) := by
    intro ix hx
    rw [radPt_scale]
    exact pulse_code_scale hs u4 v4 (hc.scri ix hx) hr₁ hr₂
  -- the two normalisations agree
  have hab : b = a := by
    obtain ⟨V, hV⟩ : ∃ V : ℕ → ℕ → ℕ → ℝ, ∀ ix it ip, V ix it ip =
      pulse rl ru (codeR q.L (radPt E.useCheb P₁.nx q.lo q.up ix)) * realY l m (Real.arccos (x it)) (phiN P₁.nphi ip) := ⟨_, fun _ _ _ => rfl⟩
    have v7' : (∃ ix it ip, ix + 1 < P₁.nx ∧ it < P₁.nlat ∧ ip < P₁.nphi ∧ 1 / 10 ^ 16 < |V ix it ip|) →
        (∀ ix it ip, ix + 1 < P₁.nx → it < P₁.nlat → ip < P₁.nphi → |b * V ix it ip| ≤ |amp|) ∧
        (∃ ix it ip, ix + 1 < P₁.nx ∧ it < P₁.nlat ∧ ip < P₁.nphi ∧ b * |V ix it ip| = amp) := by
      rintro ⟨ix, it, ip, k1, k2, k3, k4⟩
      obtain ⟨w1, ix', it', ip', y, w2, w3, w4, _, _, w5⟩ := v7 ⟨ix, it, ip, k1, k2, k3, by rwa [(key ix (by omega)).1, ← hV]⟩
      refine ⟨fun ix it ip k1 k2 k3 => ?_, ix', it', ip', w2, w3, w4, by rwa [(key ix' (by omega)).1, ← hV] at w5⟩
      obtain ⟨y, e1, e2⟩ := w1 ix it ip k1 k2 k3
      have := (v5 ix it ip k1 k2 k3).1
      rw [e1, (key ix (by omega)).1, ← hV, fin_inj] at this
      rwa [← this]
    have u7' : (∃ ix it ip, ix + 1 < P₁.nx ∧ it < P₁.nlat ∧ ip < P₁.nphi ∧ 1 / 10 ^ 16 < |V ix it ip|) →
        (∀ ix it ip, ix + 1 < P₁.nx → it < P₁.nlat → ip < P₁.nphi → |a * V ix it ip| ≤ |amp|) ∧
        (∃ ix it ip, ix + 1 < P₁.nx ∧ it < P₁.nlat ∧ ip < P₁.nphi ∧ a * |V ix it ip| = amp) := by
      rintro ⟨ix, it, ip, k1, k2, k3, k4⟩
      obtain ⟨w1, ix', it', ip', y, w2, w3, w4, _, _, w5⟩ := u7 ⟨ix, it, ip, k1, k2, k3, by rwa [← hV]⟩
      refine ⟨fun ix it ip k1 k2 k3 => ?_, ix', it', ip', w2, w3, w4, by rwa [← hV] at w5⟩
      obtain ⟨y, e1, e2⟩ := w1 ix it ip k1 k2 k3
      have := (u5 ix it ip k1 k2 k3).1
      rw [e1, ← hV, fin_inj] at this
      rwa [← this]
    by_cases hex : ∃ ix it ip, ix + 1 < P₁.nx ∧ it < P₁.nlat ∧ ip < P₁.nphi ∧ 1 / 10 ^ 16 < |V ix it ip|
    · obtain ⟨m1, i1, i2, i3, j1, j2, j3, j4⟩ := u7' hex
      obtain ⟨m2, k1, k2, k3, l1, l2, l3, l4⟩ := v7' hex
      obtain ⟨r1, r2, r3, s1, s2, s3, s4⟩ := hex
      have hVr : 0 < |V r1 r2 r3| := lt_trans (by positivity) s4
      by_cases h0 : amp = 0
      · have c1 := m1 r1 r2 r3 s1 s2 s3
        have c2 := m2 r1 r2 r3 s1 s2 s3
        rw [h0, abs_zero, abs_mul] at c1 c2
        have d1 : |a| = 0 := by nlinarith [abs_nonneg a]
        have d2 : |b| = 0 := by nlinarith [abs_nonneg b]
        rw [abs_eq_zero.mp d1, abs_eq_zero.mp d2]
      · have c1 := m1 k1 k2 k3 l1 l2 l3
        have c2 := m2 i1 i2 i3 j1 j2 j3
        have habs : 0 < |amp| := abs_pos.mpr h0
        obtain ⟨va, hva⟩ : ∃ va, va = |V i1 i2 i3| := ⟨_, rfl⟩
        obtain ⟨vb, hvb⟩ : ∃ vb, vb = |V k1 k2 k3| := ⟨_, rfl⟩
        rw [abs_mul, ← hvb] at c1
        rw [abs_mul, ← hva] at c2
        rw [← hva] at j4
        rw [← hvb] at l4
        have na : 0 ≤ va := hva ▸ abs_nonneg _
        have nb : 0 ≤ vb := hvb ▸ abs_nonneg _
        have ja : |a| * va = |amp| := by rw [← j4, abs_mul, abs_of_nonneg na]
        have jb : |b| * vb = |amp| := by rw [← l4, abs_mul, abs_of_nonneg nb]
        have pa : 0 < |a| := by
          rcases (abs_nonneg a).eq_or_lt with h | h
          · rw [← h, zero_mul] at ja; linarith
          · exact h
        have pb : 0 < |b| := by
          rcases (abs_nonneg b).eq_or_lt with h | h
          · rw [← h, zero_mul] at jb; linarith
          · exact h
        have le1 : vb ≤ va := le_of_mul_le_mul_left (c1.trans ja.ge) pa
        have le2 : va ≤ vb := le_of_mul_le_mul_left (c2.trans jb.ge) pb
        have hv : va = vb := le_antisymm le2 le1
        have pv : va ≠ 0 := by rintro h; rw [h, mul_zero] at ja; linarith
        rw [hv] at j4 pv
        exact mul_right_cancel₀ pv (l4.trans j4.symm)
    · push Not at hex
      rw [u8 fun ix it ip k1 k2 k3 => by rw [← hV]; exact hex ix it ip k1 k2 k3,
        v8 fun ix it ip k1 k2 k3 => by rw [(key ix (by omega)).1, ← hV]; exact hex ix it ip k1 k2 k3]
  subst hab
  have hw := h₁.setup.wf.ok
  have ht := h₁.setup.total
  have all : ∀ ix it ip, ix < P₁.nx → it < P₁.nlat → ip < P₁.nphi → g₁.d.at3 F₂ ix it ip = g₁.d.at3 F₁ ix it ip ∧
      g₁.d.at3 Q₂ ix it ip = fin s⁻¹ * g₁.d.at3 Q₁ ix it ip := by
    intro ix it ip hx hi hj
    by_cases hlt : ix + 1 < P₁.nx
    · obtain ⟨a1, a2⟩ := u5 ix it ip hlt hi hj
      obtain ⟨b1, b2⟩ := v5 ix it ip hlt hi hj
      rw [hd] at b1 b2
      rw [a1, a2, b1, b2, (key ix hx).1, (key ix hx).2]
      refine ⟨rfl, ?_⟩
      rw [fin_mul, fin_inj]
      ring
    · obtain rfl : ix = P₁.nx - 1 := by omega
      obtain ⟨a1, a2⟩ := u6 it ip hi hj
      obtain ⟨b1, b2⟩ := v6 it ip hi hj
      rw [hd] at b1 b2
      have hr := h₁.setup.inR hx hi hj
      rw [a1, a2, b1, b2]
      refine ⟨rfl, ?_⟩
      rw [hw.at3_eq p₂ hr, hw.at3_eq p₁ hr, hp.2 _ (by rw [hp₁, ← ht]; exact g₁.d.pos3_lt hr)]
      cases gv p₁ (g₁.d.pos3 (P₁.nx - 1) it ip) with
      | bad => rfl
      | fin r => simp only [fin_mul, fin_inj]; ring
  have pt : ∀ i, i < g₁.d.total → gv F₂ i = gv F₁ i ∧ gv Q₂ i = fin s⁻¹ * gv Q₁ i := by
    intro i hi
    obtain ⟨hr, h3⟩ := g₁.d.dec3 hi
    have := all _ _ _ (h₁.nx ▸ hr.1) (h₁.nlat ▸ hr.2.1) (h₁.nphi ▸ hr.2.2)
    rw [hw.at3_eq _ hr, hw.at3_eq _ hr, hw.at3_eq _ hr, hw.at3_eq _ hr, h3] at this
    exact this
  have hF : F₂ = F₁ := list_ext_gv (by rw [u2, v2]) fun i hi => (pt i (by rw [ht, ← hf, ← v2]; exact hi)).1
  refine ⟨F₁, Q₁, Q₂, u1, by rw [← hF]; exact v1, by rw [u3, v3, hp.1], fun i hi => (pt i ?_).2⟩
  rw [ht, ← hp₁, ← u3]
  exact hi

/-! ### The whole run -/

theorem rt_scale (hs : 0 < s) (y : CR) : (rt (fin (s⁻¹ ^ 2) * y) : CR) = fin s⁻¹ * rt y := by
  cases y with
  | bad => rfl
  | fin r =>
    have h2 : 0 < s⁻¹ ^ 2 := by positivity
    by_cases hr : 0 ≤ r
    · rw [fin_mul, fin_rt _ hr, fin_rt _ (by positivity), fin_mul, Real.sqrt_mul h2.le, Real.sqrt_sq (by positivity)]
    · have h1 : ¬ 0 ≤ s⁻¹ ^ 2 * r := by
        rw [not_le] at hr ⊢
        exact mul_neg_of_pos_of_neg h2 hr
      rw [fin_mul]
      simp only [Scalar.rt]
      rw [if_pos (not_le.mp hr), if_pos (not_le.mp h1)]
      rfl

theorem indep_res_scale (hd : g₂.d = g₁.d) (hw : g₁.Wf) (hs : 0 < s) {a b p₁ p₂ : List CR} (dt : CR) (ha : a.length = g₁.d.total)
    (hb : b.length = g₁.d.total) (hp : p₁.length = g₁.d.total) (hQ : Scaled s⁻¹ p₁ p₂) {r₁ r₂ : CR}
    (h1 : g₁.norm_indep_res dt a b p₁ = .ok r₁) (h2 : g₂.norm_indep_res (fin s * dt) a b p₂ = .ok r₂) : r₂ = fin s⁻¹ * r₁ := by
  have hn : g₁.nTot = g₁.d.total := hw.nTot_eq
  have hn2 : g₂.nTot = g₁.d.total := by unfold Grid.nTot at hn ⊢; rw [hd, hn]
  have hp2 : p₂.length = g₁.d.total := hQ.1.trans hp
  obtain ⟨S₁, hS₁⟩ : ∃ S₁ : ℕ → CR, S₁ = fun k => Nat.rec 0 (fun i r => r + pown (gv p₁ i - ((gv b i - gv a i) / dt)) 2) k := ⟨_, rfl⟩
  obtain ⟨S₂, hS₂⟩ : ∃ S₂ : ℕ → CR, S₂ = fun k => Nat.rec 0 (fun i r => r + pown (gv p₂ i - ((gv b i - gv a i) / (fin s * dt))) 2) k := ⟨_, rfl⟩
  have s10 : S₁ 0 = 0 := by subst hS₁; rfl
  have s20 : S₂ 0 = 0 := by subst hS₂; rfl
  have s1s : ∀ k, S₁ (k + 1) = S₁ k + pown (gv p₁ k - ((gv b k - gv a k) / dt)) 2 := fun k => by rw [hS₁]
  have s2s : ∀ k, S₂ (k + 1) = S₂ k + pown (gv p₂ k - ((gv b k - gv a k) / (fin s * dt))) 2 := fun k => by rw [hS₂]
  have key : ∀ k, k ≤ g₁.d.total → S₂ k = fin (s⁻¹ ^ 2) * S₁ k := by
    intro k hk
    induction k with
    | zero => rw [s10, s20]; simp
    | succ k ih =>
      rw [s1s, s2s, ih (by omega), hQ.2 k (by omega), cr_div_by hs.ne']
      generalize S₁ k = u
      generalize gv p₁ k = v
      generalize (gv b k - gv a k) / dt = w
      cases u with
      | bad => rfl
      | fin u =>
        cases v with
        | bad => rfl
        | fin v =>
          cases w with
          | bad => rfl
          | fin w => simp only [fin_mul, fin_sub, fin_pown, fin_add, fin_inj]; ring
  have k1 : forRange 0 g₁.d.total (0 : CR) (fun i res => do
      let x ← rd p₁ i
      let b ← rd b i
      let a ← rd a i
      .ok (res + pown (x - ((b - a) / dt)) 2)) = .ok (S₁ g₁.d.total) :=
    forRange_closed S₁ (Nat.zero_le _) s10.symm fun k _ hk => by
      rw [rd_ok (by omega), ok_bind, rd_ok (by omega), ok_bind, rd_ok (by omega), ok_bind, s1s]
  have k2 : forRange 0 g₁.d.total (0 : CR) (fun i res => do
      let x ← rd p₂ i
      let b ← rd b i
      let a ← rd a i
      .ok (res + pown (x - ((b - a) / (fin s * dt))) 2)) = .ok (S₂ g₁.d.total) :=
    forRange_closed S₂ (Nat.zero_le _) s20.symm fun k _ hk => by
      rw [rd_ok (by omega), ok_bind, rd_ok (by omega), ok_bind, rd_ok (by omega), ok_bind, s2s]
  unfold Grid.norm_indep_res at h1 h2
  rw [hn, cassert_true _ _ (by simp [ha]), ok_bind, cassert_true _ _ (by simp [hb]), ok_bind, cassert_true _ _ (by simp [hp]), ok_bind, k1,
    ok_bind] at h1
  rw [hn2, cassert_true _ _ (by simp [ha]), ok_bind, cassert_true _ _ (by simp [hb]), ok_bind, cassert_true _ _ (by simp [hp2]), ok_bind, k2,
    ok_bind] at h2
  injection h1 with h1
  injection h2 with h2
  rw [← h1, ← h2, key _ le_rfl, ← rt_scale hs]
  congr 1
  cases S₁ g₁.d.total with
  | bad => rfl
  | fin r =>
    rw [fin_mul, fin_dbl]
    by_cases h0 : (g₁.d.total : ℝ) = 0
    · rw [h0]; simp
    · rw [fin_div _ _ h0, fin_div _ _ h0, fin_mul, mul_div_assoc]

theorem History.filt {E : Env CR} {P : ParamRec CR} {g : Grid CR} {M : ℕ → Junk (Cx CR)} {F Q A B : ℕ → List CR} (hS : Setup E P g)
    (hH : History P g M F Q A B) (k : ℕ) : A k = g.filtP (F k) ∧ B k = g.filtP (Q k) := by
  have ht := hS.total
  obtain ⟨J⟩ : Nonempty (Junk (Cx CR)) := ⟨fun _ _ => default⟩
  have k1 := hH.filtF k J
  have k2 := hH.filtQ k J
  rw [hS.wf.filter_eq J ((hH.len k).1.trans ht.symm)] at k1
  rw [hS.wf.filter_eq J ((hH.len k).2.trans ht.symm)] at k2
  injection k1 with k1
  injection k2 with k2
  exact ⟨k1.symm, k2.symm⟩

theorem History.evo {E : Env CR} {P : ParamRec CR} {g : Grid CR} {e : Eom CR} {M : ℕ → Junk (Cx CR)} {F Q A B : ℕ → List CR} (hS : Setup E P g)
    (he : Eom.Of g P e) (hH : History P g M F Q A B) (k : ℕ) : F k = (evoP e g (F 0) (Q 0) k).1 ∧ Q k = (evoP e g (F 0) (Q 0) k).2 := by
  induction k with
  | zero => exact ⟨rfl, rfl⟩
  | succ k ih =>
    have ht := hS.total
    obtain ⟨l1, l2⟩ := hH.len k
    obtain ⟨f, hf⟩ : ∃ f : Field CR, f = ⟨"f", F k, F k, F k, F k, P.nx * P.nlat * P.nphi⟩ := ⟨_, rfl⟩
    obtain ⟨p, hp⟩ : ∃ p : Field CR, p = ⟨"p", Q k, Q k, Q k, Q k, P.nx * P.nlat * P.nphi⟩ := ⟨_, rfl⟩
    have sf : f.Sized (P.nx * P.nlat * P.nphi) := by subst hf; exact ⟨l1, l1, l1, l1, rfl⟩
    have sp : p.Sized (P.nx * P.nlat * P.nphi) := by subst hp; exact ⟨l2, l2, l2, l2, rfl⟩
    obtain ⟨e', f', p', k1, k2, k3, _⟩ := hH.step k e f p he sf sp (by rw [hf]) (by rw [hp])
    rw [← ht] at sf sp
    rw [Eom.time_step_eq hS.wf (he.wf hS) _ sf sp] at k1
    dsimp only at k1
    injection k1 with k1
    injection k1 with _ k1
    injection k1 with c1 c2
    rw [← c1] at k2
    rw [← c2] at k3
    rw [← k2, ← k3]
    have e1 : f.n = F k := by rw [hf]
    have e2 : p.n = Q k := by rw [hp]
    rw [e1, e2, ih.1, ih.2]
    exact ⟨rfl, rfl⟩

theorem zeros_scaled (c : ℝ) (n : ℕ) : Scaled c (List.replicate n (lit 0 : CR)) (List.replicate n (lit 0)) := by
  refine ⟨rfl, fun i hi => ?_⟩
  rw [List.length_replicate] at hi
  have : gv (List.replicate n (lit 0 : CR)) i = fin 0 := by simp [gv, hi]
  rw [this]
  simp

/-- C103, whole runs: two runs whose parameters describe the same system in two units of length (the pulse included).  At every step, as
long as the first run stays finite: the fields are equal, the velocities are divided by `s`, the energy densities by `s²`, the printed
residuals by `s`, and the printed total variations are equal. -/
theorem C103_rescaled_run (h₁ : Exact E P₁ g₁ q x A) (h₂ : Exact E P₂ g₂ (q.rescale s) x A) (hs : 0 < s) (hz : SameSizes P₁ P₂)
    (hc : q.Clear s E.useCheb P₁.nx) {amp rl ru : ℝ} {l m : ℕ} (hP₁ : PulseParams P₁ amp rl ru l m)
    (hP₂ : PulseParams P₂ amp (s * rl) (s * ru) l m) (hdir : P₂.direction = P₁.direction) (hr₁ : ru ≤ 10 ^ 12) (hr₂ : s * ru ≤ 10 ^ 12)
    {io₁ io₂ : IOEnv CR} {M₁ M₂ N₁ N₂ : ℕ → Junk (Cx CR)} {F₁ Q₁ A₁ B₁ D₁ F₂ Q₂ A₂ B₂ D₂ : ℕ → List CR}
    {tF₁ tD₁ tF₂ tD₂ : ℕ → List (List Char)} {res₁ tv₁ res₂ tv₂ : ℕ → CR}
    (H₁ : History P₁ g₁ M₁ F₁ Q₁ A₁ B₁) (H₂ : History P₂ g₂ M₂ F₂ Q₂ A₂ B₂) (V₁ : Derived P₁ g₁ io₁ N₁ F₁ Q₁ A₁ B₁ D₁ tF₁ tD₁ res₁ tv₁)
    (V₂ : Derived P₂ g₂ io₂ N₂ F₂ Q₂ A₂ B₂ D₂ tF₂ tD₂ res₂ tv₂) (N : ℕ) (hfin : ∀ k ≤ N, AllFin (F₁ k) ∧ AllFin (Q₁ k)) :
    ∀ k ≤ N, F₂ k = F₁ k ∧ Scaled s⁻¹ (Q₁ k) (Q₂ k) ∧ Scaled (s⁻¹ ^ 2) (D₁ k) (D₂ k) ∧ res₂ k = fin s⁻¹ * res₁ k ∧ tv₂ k = tv₁ k := by
  have ht := h₁.setup.total
  have hw := h₁.setup.wf
  have hd := (ang_same h₁.setup.toBuiltGrid h₂.setup.toBuiltGrid hz).1
  obtain ⟨e₁, _, he₁⟩ := Eom.Of.exists h₁.setup
  obtain ⟨e₂, _, he₂⟩ := Eom.Of.exists h₂.setup
  have t := twin_scale h₁ h₂ hs hz hc he₁ he₂
  have len₁ : ∀ k, (F₁ k).length = g₁.d.total ∧ (Q₁ k).length = g₁.d.total := fun k => by rw [ht]; exact H₁.len k
  -- initial data
  obtain ⟨F, Qa, Qb, i1, i2, i3⟩ := C103_rescaled_pulse h₁ h₂ hs hz hc hP₁ hP₂ hdir hr₁ hr₂ (fun _ _ => default) (fun _ _ => default)
    (f := List.replicate (P₁.nx * P₁.nlat * P₁.nphi) (lit 0)) (p₁ := List.replicate (P₁.nx * P₁.nlat * P₁.nphi) (lit 0)) (by simp) (by simp)
    (zeros_scaled s⁻¹ _)
  have j1 := H₁.start (fun _ _ => default)
  have j2 := H₂.start (fun _ _ => default)
  rw [i1] at j1
  rw [hz.size, i2] at j2
  injection j1 with j1
  injection j1 with j1 j1'
  injection j2 with j2
  injection j2 with j2 j2'
  subst j1 j1' j2'
  have start1 : RelF g₁.d.total (fun i => i) 1 (F₁ 0) (F₂ 0) := by rw [← j2]; exact (hfin 0 (Nat.zero_le _)).1.same (len₁ 0).1
  have start2 : RelF g₁.d.total (fun i => i) s⁻¹ (Q₁ 0) (Q₂ 0) := i3.rel (len₁ 0).2 (hfin 0 (Nat.zero_le _)).2
  have evo : ∀ k ≤ N, RelF g₁.d.total (fun i => i) 1 (F₁ k) (F₂ k) ∧ RelF g₁.d.total (fun i => i) s⁻¹ (Q₁ k) (Q₂ k) := by
    intro k hk
    have e1 := H₁.evo h₁.setup he₁
    have e2 := H₂.evo h₂.setup he₂ k
    have := t.evo start1 start2 k fun j hj => by rw [← (e1 j).1, ← (e1 j).2]; exact hfin j (hj.trans hk)
    rwa [← (e1 k).1, ← (e1 k).2, ← e2.1, ← e2.2] at this
  have hdt : P₁.dt = fin q.dt ∧ P₂.dt = fin s * fin q.dt := ⟨h₁.phys.dt, by rw [h₂.phys.dt]; rfl⟩
  intro k hk
  obtain ⟨r1, r2⟩ := evo k hk
  have hF := r1.same
  refine ⟨hF, r2.scaled, ?_, ?_, ?_⟩
  · have ht2 := h₂.setup.total
    obtain ⟨_, d1⟩ := V₁.dens k e₁ (List.replicate (P₁.nx * P₁.nlat * P₁.nphi) (lit 0)) he₁ (by simp)
    obtain ⟨_, d2⟩ := V₂.dens k e₂ (List.replicate (P₂.nx * P₂.nlat * P₂.nphi) (lit 0)) he₂ (by simp)
    have l2 := H₂.len k
    rw [Eom.set_rho_eq hw (he₁.wf h₁.setup) _ (len₁ k).1 (len₁ k).2 (by simp [ht])] at d1
    rw [Eom.set_rho_eq h₂.setup.wf (he₂.wf h₂.setup) _ (l2.1.trans ht2.symm) (l2.2.trans ht2.symm) (by simp [ht2])] at d2
    injection d1 with d1
    injection d1 with _ d1
    injection d2 with d2
    injection d2 with _ d2
    rw [← d1, ← d2, hF]
    exact rhoP_scale h₁ h₂ hs hz hc he₁ he₂ (hfin k hk).1 (len₁ k).1 r2
  · cases k with
    | zero =>
      have a1 := V₁.res0
      have a2 := V₂.res0
      rw [hdt.2, hF] at a2
      rw [hdt.1] at a1
      exact indep_res_scale hd hw hs _ (len₁ 0).1 (len₁ 0).1 (len₁ 0).2 r2.scaled a1 a2
    | succ k =>
      obtain ⟨r3, r4⟩ := evo k (by omega)
      have a1 := V₁.resS k
      have a2 := V₂.resS k
      have n4 := t.filt _ _ _ r3
      have n5 := t.filt _ _ _ r4
      rw [hdt.2, hF, (H₂.filt h₂.setup k).1, (H₂.filt h₂.setup k).2, n4.same] at a2
      rw [hdt.1, (H₁.filt h₁.setup k).1, (H₁.filt h₁.setup k).2] at a1
      exact indep_res_scale hd hw hs _ (by simp) (len₁ (k + 1)).1 (by simp) n5.scaled a1 a2
  · have a1 := V₁.tv k
    have a2 := V₂.tv k
    rw [hF] at a2
    unfold Grid.total_variation Grid.nTot at a1 a2
    rw [hd, a1] at a2
    injection a2 with a2
    exact a2.symm

end

/-- C103: the condition on the absolute thresholds cannot be dropped.  A nearly extremal black hole, `a = (1 - 10⁻¹⁷) M` with `M = 1`, is
taken for an extremal one, but with lengths in a unit 1000 times smaller it is not: the coefficients of the second radial derivative, which
should be equal, differ at every finite radius.  A point at distance `10⁻¹⁷` from the outer boundary `L = 1` gets the radius `10¹²`, but a
radius above `10¹⁹` units in the smaller unit. -/
theorem C103_thresholds_are_absolute :
    (∀ u θ : ℝ, 0 < u → ∃ c d : ℝ, (coefOf (fin 1) (fin (1 - 1 / 10 ^ 17)) (fin u) (fin θ)).p_dr_dr_f = fin c ∧
      (coefOf (fin (1000 * 1)) (fin (1000 * (1 - 1 / 10 ^ 17))) (fin (u / 1000)) (fin θ)).p_dr_dr_f = fin d ∧ d < c) ∧
    Grid.R_to_r (fin 1) (fin (1 - 1 / 10 ^ 17)) = fin (10 ^ 12) ∧
    ∃ r, Grid.R_to_r (fin (1000 * 1)) (fin (1000 * (1 - 1 / 10 ^ 17))) = fin r ∧ 10 ^ 19 < r := by
  refine ⟨?_, ?_, ?_⟩
  · intro u θ hu
    obtain ⟨a, ha⟩ : ∃ a : ℝ, a = 1 - 1 / 10 ^ 17 := ⟨_, rfl⟩
    have a0 : 0 < a := by rw [ha]; norm_num
    have a1 : a < 1 := by rw [ha]; norm_num
    rw [← ha]
    have t16 : (1:ℝ) / 10 ^ 16 = 1 / 10000000000000000 := by norm_num
    have e1 : kerrRp (fin 1) (fin a) = fin 1 ∧ kerrRm (fin 1) (fin a) = fin 1 := by
      have hc : |1 - abs a| < 1 / 10 ^ 16 := by rw [abs_of_pos a0, abs_of_pos (by linarith), ha]; norm_num
      unfold kerrRm kerrRp
      simp only [fin_fabs, fin_sub, fin_tenth, fin_lt]
      exact ⟨if_pos hc, if_pos hc⟩
    obtain ⟨w, hw⟩ : ∃ w : ℝ, w = Real.sqrt ((1000 - 1000 * a) * (1000 + 1000 * a)) := ⟨_, rfl⟩
    have hpos : 0 ≤ (1000 - 1000 * a) * (1000 + 1000 * a) := by nlinarith
    have w2 : w ^ 2 = 1000 ^ 2 - 1000 ^ 2 * a ^ 2 := by rw [hw, Real.sq_sqrt hpos]; ring
    have w0 : 0 ≤ w := hw ▸ Real.sqrt_nonneg _
    have n0 : 1000 + w ≠ 0 := by linarith
    have e2 : kerrRp (fin 1000) (fin (1000 * a)) = fin (1000 + w) ∧ kerrRm (fin 1000) (fin (1000 * a)) = fin (1000 - w) := by
      have hc : ¬ |1000 - abs (1000 * a)| < 1 / 10 ^ 16 := by
        have h0 : |1000 * a| = 1000 * a := abs_of_pos (by positivity)
        rw [h0, abs_of_pos (by linarith), ha]; norm_num
      have hc2 : ¬ |1000 * a| < 1 / 10 ^ 16 := by rw [abs_of_pos (by positivity), ha]; norm_num
      have k1 : kerrRp (fin 1000) (fin (1000 * a)) = fin (1000 + w) := by
        unfold kerrRp
        simp only [fin_fabs, fin_sub, fin_tenth, fin_lt, fin_add, fin_mul]
        rw [if_neg hc, if_neg hc2, fin_rt _ hpos, ← hw, fin_add]
      refine ⟨k1, ?_⟩
      unfold kerrRm
      rw [k1]
      simp only [fin_fabs, fin_sub, fin_tenth, fin_lt]
      rw [if_neg hc, fin_pown, fin_div _ _ n0, fin_inj, div_eq_iff n0]
      nlinarith
    have hS : 0 < 1 + u ^ 2 * a ^ 2 * Real.cos θ ^ 2 := by positivity
    obtain ⟨S, hS'⟩ : ∃ S, S = 1 + u ^ 2 * a ^ 2 * Real.cos θ ^ 2 := ⟨_, rfl⟩
    rw [← hS'] at hS
    have hS2 : 1 + (u / 1000) ^ 2 * (1000 * a) ^ 2 * Real.cos θ ^ 2 = S := by rw [hS']; ring
    have hu2 : 2 * 1000 * (u / 1000) = 2 * 1 * u := by ring
    have hp : 0 < 1 + 2 * 1 * u / S := by positivity
    refine ⟨((1 - 1 * u) * (1 - 1 * u)) / S * (1 / (1 + 2 * 1 * u / S)),
      ((1 - (1000 + w) * (u / 1000)) * (1 - (1000 - w) * (u / 1000))) / S * (1 / (1 + 2 * 1 * u / S)), ?_, ?_, ?_⟩
    · unfold coefOf
      dsimp only
      rw [e1.1, e1.2]
      simp only [fin_ofNat_one, fin_ofNat', fin_cos, fin_pown, fin_mul, fin_add, fin_sub]
      rw [← hS', fin_div _ _ hS.ne', fin_div _ _ hS.ne', fin_add, fin_div _ _ hp.ne', fin_mul]
    · unfold coefOf
      dsimp only
      rw [mul_one, e2.1, e2.2]
      simp only [fin_ofNat_one, fin_ofNat', fin_cos, fin_pown, fin_mul, fin_add, fin_sub]
      rw [hS2, hu2, fin_div _ _ hS.ne', fin_div _ _ hS.ne', fin_add, fin_div _ _ hp.ne', fin_mul]
    · have h1 : (1 - (1000 + w) * (u / 1000)) * (1 - (1000 - w) * (u / 1000)) = (1 - u) ^ 2 - (1 - a ^ 2) * u ^ 2 := by
        linear_combination (-(u / 1000) ^ 2) * w2
      have h2 : 0 < (1 - a ^ 2) * u ^ 2 := by
        have : 0 < 1 - a ^ 2 := by nlinarith
        positivity
      rw [h1]
      have h3 : ((1 - u) ^ 2 - (1 - a ^ 2) * u ^ 2) / S < ((1 - 1 * u) * (1 - 1 * u)) / S := by
        apply div_lt_div_of_pos_right _ hS
        nlinarith
      exact mul_lt_mul_of_pos_right h3 (by positivity)
  · unfold Grid.R_to_r
    simp only [fin_fabs, fin_sub, fin_tenth, fin_lt]
    rw [if_neg (by rw [not_lt]; rw [show (1 - 1 / 10 ^ 17 - 1 : ℝ) = -(1 / 10 ^ 17) by ring, abs_neg, abs_of_pos (by positivity)]; norm_num)]
    simp
  · unfold Grid.R_to_r
    simp only [fin_fabs, fin_sub, fin_tenth, fin_lt]
    rw [if_pos (by rw [show (1000 * (1 - 1 / 10 ^ 17) - 1000 * 1 : ℝ) = -(1000 / 10 ^ 17) by ring, abs_neg, abs_of_pos (by positivity)]; norm_num)]
    have n : (1:ℝ) - 1000 * (1 - 1 / 10 ^ 17) / (1000 * 1) ≠ 0 := by norm_num
    rw [fin_ofNat_one, fin_div _ _ (by norm_num), fin_sub, fin_div _ _ n]
    exact ⟨_, rfl, by norm_num⟩

/-! ### Non-vacuity -/

/-- a spherical pulse of amplitude `t` -/
noncomputable def unitP (t : ℝ) : ParamRec CR := { freeP with amp := fin t, l_ang := 0, m_ang := 0 }

/-- the same in half the unit -/
noncomputable def unitP2 (t : ℝ) : ParamRec CR :=
  { unitP t with
    dt := fin (2 * (1/100)), cl := fin (2 * 100), Rmin := fin (2 * compR 100 (9/10)), Rmax := fin (2 * 100), bh_mass := fin (2 * (1/2)),
    bh_spin := fin (2 * (3/10)), V2 := fin (1 / 2 ^ 2), V3 := fin (0 / 2 ^ 2), V4 := fin (0 / 2 ^ 2), rl := fin (2 * (-9/10)), ru := fin (2 * (27/10)) }

theorem unit_pulse (t : ℝ) : PulseParams (unitP t) t (-9/10) (27/10) 0 0 ∧ PulseParams (unitP2 t) t (2 * (-9/10)) (2 * (27/10)) 0 0 :=
  ⟨⟨rfl, rfl, rfl, by norm_num, rfl, rfl, le_rfl, Nat.zero_le _, Nat.zero_le _⟩,
    ⟨rfl, rfl, rfl, by norm_num, rfl, rfl, le_rfl, Nat.zero_le _, Nat.zero_le _⟩⟩

theorem unit_clear : freeQ.Clear 2 false 33 := by
  have hlo : compR 100 (9/10) = 900 / 1009 := by unfold compR; norm_num
  refine ⟨Or.inr ?_, Or.inr ?_, fun ix hx => ?_⟩
  · simp only [freeQ, demoQ]
    rw [abs_of_pos (show (0:ℝ) < 3/10 by norm_num), abs_of_pos (by norm_num)]
    norm_num
  · simp only [freeQ, demoQ]
    rw [abs_of_pos (show (0:ℝ) < 3/10 by norm_num)]
    norm_num
  · simp only [freeQ, demoQ, hlo, radPt]
    have e : (900 / 1009 : ℝ) + ix * ((100 - 900 / 1009) / ((33:ℕ) - 1 : ℝ)) - 100 = ((ix : ℝ) - 32) * (100000 / 32288) := by push_cast; ring
    simp only [Bool.false_eq_true, if_false]
    rw [e]
    by_cases h : ix = 32
    · left; subst h; norm_num
    · right
      have h1 : (ix : ℝ) + 1 ≤ 32 := by exact_mod_cast (by omega : ix + 1 ≤ 32)
      rw [abs_mul, abs_of_neg (by linarith : (ix : ℝ) - 32 < 0), abs_of_pos (by norm_num : (0:ℝ) < 100000 / 32288)]
      constructor
      · have : (1:ℝ) / 10 ^ 16 < 1 * (100000 / 32288) := by norm_num
        nlinarith
      · have : (1:ℝ) / 10 ^ 16 < 1 * (100000 / 32288) := by norm_num
        nlinarith

theorem unit_exact (contig ndebug : Bool) : ∃ (E : Env CR) (x : ℕ → ℝ) (A : ℕ → ℕ → ℕ → ℝ) (g₁ g₂ : Grid CR) (e₁ : Eom CR), E.useCheb = false ∧
    Exact E freeP g₁ freeQ x A ∧ Eom.Of g₁ freeP e₁ ∧ ∀ t, Exact E (unitP t) g₁ freeQ x A ∧ Exact E (unitP2 t) g₂ (freeQ.rescale 2) x A ∧
      Eom.Of g₁ (unitP t) e₁ ∧ Valid E (unitP t) ∧ Valid E (unitP2 t) := by
  obtain ⟨E, x, A, g, e, h1, h2, h3, h4, h5, h6, h7⟩ := demo_setup contig ndebug false
  have hS : Setup E freeP g := ⟨⟨h5.sized, h5.sizes, h5.grid⟩, h5.orders⟩
  obtain ⟨e', _, he'⟩ := Eom.Of.exists hS
  have hlo : compR 100 (9/10) = 900 / 1009 := by unfold compR; norm_num
  obtain ⟨g₂, hg2, _⟩ := Grid.ctor_wf h5.sized h5.sizes (fin (2 * 100)) (fin (2 * compR 100 (9/10))) (fin (2 * 100))
  have ex : Exact E freeP g freeQ x A := by
    refine ⟨hS, h4, by constructor <;> rfl, ?_, ?_⟩ <;> simp only [freeQ, demoQ, hlo] <;> norm_num
  refine ⟨E, x, A, g, g₂, e', h3, ex, he', fun t => ⟨⟨⟨⟨h5.sized, h5.sizes, h5.grid⟩, h5.orders⟩, h4, by constructor <;> rfl, ex.lu, ex.L0⟩,
    ⟨⟨⟨h5.sized, h5.sizes, hg2⟩, h5.orders⟩, h4, by constructor <;> rfl, ?_, ?_⟩, he', ?_, ?_⟩⟩
  · simp only [Phys.rescale, freeQ, demoQ, hlo]; norm_num
  · simp only [Phys.rescale, freeQ, demoQ]; norm_num
  · refine ⟨h5.sized, h5.sizes, ?_, ?_, ?_, ?_, ?_⟩ <;> simp only [unitP, freeP, demoP] <;> decide
  · refine ⟨h5.sized, h5.sizes, ?_, ?_, ?_, ?_, ?_⟩ <;> simp only [unitP2, unitP, freeP, demoP] <;> decide

theorem realY00 (θ φ : ℝ) : realY 0 0 θ φ = nrmY 0 0 := by
  unfold realY Ylm ThZ ThN legP
  simp

theorem nrmY00 : 1 / 10 < nrmY 0 0 := by
  unfold nrmY
  apply Real.lt_sqrt_of_sq_lt
  simp only [Nat.cast_zero, mul_zero, zero_add, Nat.sub_self, Nat.factorial_zero, Nat.cast_one, div_one, mul_one]
  have h1 := Real.pi_le_four
  have h0 := Real.pi_pos
  rw [lt_div_iff₀ (by positivity)]
  norm_num
  linarith

/-- the pulse of the examples at the horizon -/
theorem unit_pulse_big : 1 / 10 ^ 16 < |pulse (-9/10) (27/10) (9/10) * nrmY 0 0| := by
  have h1 : 1 / 10 ^ 14 < pulse (-9/10) (27/10) (9/10) := by
    unfold pulse
    rw [if_pos (by norm_num)]
    have e1 : (27/10 - -9/10 : ℝ) / (9/10 - -9/10) = 2 := by norm_num
    have e2 : 2 * (27/10 - -9/10 : ℝ) / (27/10 - 9/10) = 4 := by norm_num
    have e3 : ((9/10 - -9/10 : ℝ) / (27/10 - -9/10)) = 1 / 2 := by norm_num
    have e4 : ((27/10 - 9/10 : ℝ) / (27/10 - -9/10)) = 1 / 2 := by norm_num
    have x1 : Real.exp (-4) = Real.exp (-1) ^ 4 := by rw [← Real.exp_nat_mul]; norm_num
    have x2 : Real.exp (-2) = Real.exp (-1) ^ 2 := by rw [← Real.exp_nat_mul]; norm_num
    have x3 : (1:ℝ) / 10 < Real.exp (-1) := by
      rw [Real.exp_neg, one_div]
      apply inv_strictAnti₀ (Real.exp_pos 1)
      have := Real.exp_one_lt_d9
      linarith
    have x4 : (1/10 : ℝ) ^ 6 < Real.exp (-1) ^ 6 := pow_lt_pow_left₀ x3 (by norm_num) (by norm_num)
    rw [e1, e2, e3, e4, x1, x2]
    norm_num at x4 ⊢
    nlinarith
  have h2 := nrmY00
  rw [abs_of_pos (by positivity)]
  have : (1:ℝ) / 10 ^ 16 < 1 / 10 ^ 14 * (1 / 10) := by norm_num
  have h3 : (1:ℝ) / 10 ^ 14 * (1 / 10) ≤ pulse (-9/10) (27/10) (9/10) * nrmY 0 0 :=
    mul_le_mul h1.le h2.le (by norm_num) (lt_trans (by positivity) h1).le
  linarith

/-- non-vacuity of C103: on a spinning black hole, a run of 3 steps from a pulse, which stays finite, and the same in half the unit of
length; all hypotheses of C103_rescaled_run hold, and the initial field is not zero. -/
example (contig ndebug : Bool) (io : IOEnv CR) (M : ℕ → Junk (Cx CR)) : ∃ (t : ℝ) (E : Env CR) (x : ℕ → ℝ) (A : ℕ → ℕ → ℕ → ℝ) (g₁ g₂ : Grid CR)
    (F₁ Q₁ A₁ B₁ D₁ F₂ Q₂ A₂ B₂ D₂ : ℕ → List CR) (tF₁ tD₁ tF₂ tD₂ : ℕ → List (List Char)) (res₁ tv₁ res₂ tv₂ : ℕ → CR),
    Exact E (unitP t) g₁ freeQ x A ∧ Exact E (unitP2 t) g₂ (freeQ.rescale 2) x A ∧ SameSizes (unitP t) (unitP2 t) ∧
    freeQ.Clear 2 E.useCheb (unitP t).nx ∧ PulseParams (unitP t) t (-9/10) (27/10) 0 0 ∧
    PulseParams (unitP2 t) t (2 * (-9/10)) (2 * (27/10)) 0 0 ∧ (unitP2 t).direction = (unitP t).direction ∧
    History (unitP t) g₁ M F₁ Q₁ A₁ B₁ ∧ History (unitP2 t) g₂ M F₂ Q₂ A₂ B₂ ∧
    Derived (unitP t) g₁ io M F₁ Q₁ A₁ B₁ D₁ tF₁ tD₁ res₁ tv₁ ∧ Derived (unitP2 t) g₂ io M F₂ Q₂ A₂ B₂ D₂ tF₂ tD₂ res₂ tv₂ ∧
    (∀ k ≤ 3, AllFin (F₁ k) ∧ AllFin (Q₁ k)) ∧ ∃ i, ∃ y : ℝ, gv (F₁ 0) i = fin y ∧ 0 < y := by
  obtain ⟨E, x, A, g₁, g₂, e, hC, ex, he, hall⟩ := unit_exact contig ndebug
  have hlo : compR 100 (9/10) = 900 / 1009 := by unfold compR; norm_num
  have ht := ex.setup.total
  have hw := ex.setup.wf.ok
  obtain ⟨D, hD⟩ : ∃ D : ℝ → ℝ, ∀ r, HasDerivAt (pulse (-9/10) (27/10)) (D r) r := ⟨_, fun r => hasDerivAt_pulse _ _ r⟩
  obtain ⟨R, hR⟩ : ∃ R : ℕ → ℝ, ∀ ix, R ix = codeR freeQ.L (radPt E.useCheb 33 freeQ.lo freeQ.up ix) := ⟨_, fun _ => rfl⟩
  obtain ⟨y, hy⟩ : ∃ y : ℕ → ℝ, ∀ i, y i = if g₁.d.dX i + 1 < 33 then pulse (-9/10) (27/10) (R (g₁.d.dX i)) * nrmY 0 0 else 0 := ⟨_, fun _ => rfl⟩
  obtain ⟨z, hz⟩ : ∃ z : ℕ → ℝ, ∀ i, z i = if g₁.d.dX i + 1 < 33 then dirSign "ingoing".toList * D (R (g₁.d.dX i)) * nrmY 0 0 else 0 := ⟨_, fun _ => rfl⟩
  obtain ⟨ε, ε0, hε⟩ := C74_small_free_fields_stay_finite ex he ⟨demo_ok.1, demo_ok.2, demo_ok.3, demo_ok.4⟩
    (by simp only [freeQ, demoQ, hlo]; norm_num) (by simp only [freeQ, demoQ, hlo]; norm_num) (by simp only [freeQ, demoQ]; exact le_rfl)
    (by simp only [freeQ, demoQ]; norm_num) rfl rfl rfl rfl rfl y z 3
  obtain ⟨t, ht0⟩ : ∃ t : ℝ, t = ε / 10 ^ 17 := ⟨_, rfl⟩
  have tp : 0 < t := by rw [ht0]; positivity
  obtain ⟨x1, x2, x3, v1, v2⟩ := hall t
  have z1 : 0 + 1 < (unitP t).nx := by show 0 + 1 < 33; decide
  have z2 : 0 < (unitP t).nlat := by show 0 < 8; decide
  have z3 : 0 < (unitP t).nphi := by show 0 < 16; decide
  obtain ⟨F₁, Q₁, A₁, B₁, H₁⟩ := exists_history v1 x1.setup.toBuiltGrid M
  obtain ⟨F₂, Q₂, A₂, B₂, H₂⟩ := exists_history v2 x2.setup.toBuiltGrid M
  obtain ⟨D₁, tF₁, tD₁, res₁, tv₁, V₁⟩ := exists_derived x1.setup.toBuiltGrid io M H₁
  obtain ⟨D₂, tF₂, tD₂, res₂, tv₂, V₂⟩ := exists_derived x2.setup.toBuiltGrid io M H₂
  obtain ⟨J⟩ : Nonempty (Junk (Cx CR)) := ⟨fun _ _ => default⟩
  obtain ⟨F, Q, s, D', u1, u2, u3, u4, u5, u6, u7, u8⟩ := C54_initial_values x1.setup.toBuiltGrid x1.phys x1.env x1.L0 (unit_pulse t).1 J
    (f := List.replicate ((unitP t).nx * (unitP t).nlat * (unitP t).nphi) (lit 0)) (p := List.replicate ((unitP t).nx * (unitP t).nlat * (unitP t).nphi) (lit 0))
    (by simp) (by simp)
  rw [H₁.start J] at u1
  injection u1 with u1
  injection u1 with u1 u1'
  subst u1 u1'
  have hR0 : R 0 = 9 / 10 := by
    rw [hR, hC]
    simp only [freeQ, demoQ, hlo, radPt, codeR, physR, Bool.false_eq_true, if_false, Nat.cast_zero, zero_mul, add_zero]
    rw [if_pos (by rw [abs_of_neg (by norm_num)]; norm_num)]
    norm_num
  obtain ⟨m1, ix, it, ip, _, m2, m3, m4, _, _, m5⟩ := u7 ⟨0, 0, 0, z1, z2, z3, by
    rw [realY00]
    have := unit_pulse_big
    rw [← hR0, hR] at this
    exact this⟩
  -- the scale factor is small and positive
  have big := unit_pulse_big
  have s0 : 0 < s := by
    by_contra hn
    have : s * |pulse (-9/10) (27/10) (codeR freeQ.L (radPt E.useCheb (unitP t).nx freeQ.lo freeQ.up ix)) *
        realY 0 0 (Real.arccos (x it)) (phiN (unitP t).nphi ip)| ≤ 0 := mul_nonpos_of_nonpos_of_nonneg (not_lt.mp hn) (abs_nonneg _)
    rw [m5] at this
    linarith
  have f00 := (u5 0 0 0 z1 z2 z3).1
  have sε : |s| < ε := by
    obtain ⟨y0, k1, k2⟩ := m1 0 0 0 z1 z2 z3
    rw [f00, realY00, fin_inj] at k1
    have hR0' : codeR freeQ.L (radPt E.useCheb (unitP t).nx freeQ.lo freeQ.up 0) = 9 / 10 := by rw [← hR0, hR]; rfl
    rw [hR0'] at k1
    rw [← k1, abs_mul, abs_of_pos tp] at k2
    by_contra hn
    have : ε * (1 / 10 ^ 16) < |s| * |pulse (-9/10) (27/10) (9/10) * nrmY 0 0| :=
      lt_of_lt_of_le (mul_lt_mul_of_pos_left big ε0) (mul_le_mul_of_nonneg_right (not_lt.mp hn) (abs_nonneg _))
    have h2 : t < ε * (1 / 10 ^ 16) := by rw [ht0]; rw [div_eq_mul_one_div]; exact mul_lt_mul_of_pos_left (by norm_num) ε0
    linarith
  have vals : ∀ i, i < g₁.d.total → gv (F₁ 0) i = fin (s * y i) ∧ gv (Q₁ 0) i = fin (s * z i) := by
    intro i hi
    obtain ⟨hr, h3⟩ := g₁.d.dec3 hi
    have b1 : g₁.d.dX i < 33 := by have := hr.1; rw [ex.nx] at this; exact this
    have b2 : g₁.d.dT i < (unitP t).nlat := by have := hr.2.1; rw [ex.nlat] at this; exact this
    have b3 : g₁.d.dP i < (unitP t).nphi := by have := hr.2.2; rw [ex.nphi] at this; exact this
    rw [← h3]
    rw [← hw.at3_eq _ hr, ← hw.at3_eq _ hr, h3, hy, hz]
    by_cases hc : g₁.d.dX i + 1 < 33
    · obtain ⟨w1, w2⟩ := u5 _ _ _ hc b2 b3
      rw [if_pos hc, if_pos hc, w1, w2, realY00, hR, (u4 _).unique (hD _)]
      exact ⟨rfl, rfl⟩
    · rw [if_neg hc, if_neg hc, mul_zero]
      have hl : g₁.d.dX i = (unitP t).nx - 1 := by show _ = 32; omega
      obtain ⟨w1, w2⟩ := u6 _ _ b2 b3
      rw [← hl] at w1 w2
      have z0 : g₁.d.at3 (List.replicate ((unitP t).nx * (unitP t).nlat * (unitP t).nphi) (lit 0 : CR)) (g₁.d.dX i) (g₁.d.dT i) (g₁.d.dP i) = fin 0 := by
        rw [hw.at3_eq _ hr, h3]
        have hi' : i < (unitP t).nx * (unitP t).nlat * (unitP t).nphi := by rw [← x1.setup.total]; exact hi
        simp [gv, hi']
      rw [w1, w2, z0]
      simp
  have fin3 : ∀ k ≤ 3, AllFin (F₁ k) ∧ AllFin (Q₁ k) := by
    intro k hk
    obtain ⟨f, hf⟩ : ∃ f : Field CR, f = ⟨"f", F₁ 0, F₁ 0, F₁ 0, F₁ 0, freeP.nx * freeP.nlat * freeP.nphi⟩ := ⟨_, rfl⟩
    obtain ⟨p, hp⟩ : ∃ p : Field CR, p = ⟨"p", Q₁ 0, Q₁ 0, Q₁ 0, Q₁ 0, freeP.nx * freeP.nlat * freeP.nphi⟩ := ⟨_, rfl⟩
    obtain ⟨l1, l2⟩ := H₁.len 0
    have sf : f.Sized (freeP.nx * freeP.nlat * freeP.nphi) := by subst hf; exact ⟨l1, l1, l1, l1, rfl⟩
    have sp : p.Sized (freeP.nx * freeP.nlat * freeP.nphi) := by subst hp; exact ⟨l2, l2, l2, l2, rfl⟩
    have e1 : f.n = F₁ 0 := by rw [hf]
    have e2 : p.n = Q₁ 0 := by rw [hp]
    have := (hε s sε f p sf sp (fun i hi => by rw [e1]; exact (vals i (by rw [ht]; exact hi)).1)
      (fun i hi => by rw [e2]; exact (vals i (by rw [ht]; exact hi)).2)).evoP ex.setup he sf sp k hk
    rw [e1, e2] at this
    obtain ⟨c1, c2⟩ := H₁.evo x1.setup x3 k
    rw [c1, c2]
    exact this
  refine ⟨t, E, x, A, g₁, g₂, F₁, Q₁, A₁, B₁, D₁, F₂, Q₂, A₂, B₂, D₂, tF₁, tD₁, tF₂, tD₂, res₁, tv₁, res₂, tv₂, x1, x2, ⟨rfl, rfl, rfl, rfl, rfl⟩,
    by rw [hC]; exact unit_clear, (unit_pulse t).1, (unit_pulse t).2, rfl, H₁, H₂, V₁, V₂, fin3, g₁.d.pos3 0 0 0,
    s * (pulse (-9/10) (27/10) (codeR freeQ.L (radPt E.useCheb (unitP t).nx freeQ.lo freeQ.up 0)) * nrmY 0 0), ?_, ?_⟩
  · rw [← hw.at3_eq _ (x1.setup.inR (Nat.lt_of_succ_lt z1) z2 z3), f00, realY00]
  · have hR0' : codeR freeQ.L (radPt E.useCheb (unitP t).nx freeQ.lo freeQ.up 0) = 9 / 10 := by rw [← hR0, hR]; rfl
    rw [hR0']
    have hn := nrmY00
    have hp : 0 < pulse (-9/10) (27/10) (9/10) := (C52_profile_and_slope (by norm_num) _).2.2.1 (by norm_num) (by norm_num)
    have : 0 < nrmY 0 0 := by linarith
    positivity

end SFK
