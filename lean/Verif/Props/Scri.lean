import Verif.Lemmas.Setup
import Verif.Props.FP
import Mathlib.Analysis.SpecialFunctions.Trigonometric.Bounds
/-
C115: the outermost shell of a grid that ends at the compactification length is infinity.
-/
namespace SFK
open Scalar CR

/-! ## Exact arithmetic -/

/-- C115: In exact arithmetic, on a grid whose outer boundary is the compactification length (what the launcher asks for,
sim_class.py:49), the outermost shell (the last one with finite differences, the first one with Chebyshev points) has the
compactified radius `L`, and the inverse radius the equations of motion use there is zero. -/
theorem C115_outermost_shell_is_infinity {E : Env CR} {P : ParamRec CR} {g : Grid CR} {q : Phys} {x : ℕ → ℝ} {A : ℕ → ℕ → ℕ → ℝ}
    (hS : BuiltGrid E P g) (hq : q.Is P) (hE : E.Exact P.nx P.nl P.nm P.nlat P.nphi x A) (hup : q.up = q.L) {it ip : ℕ}
    (ht : it < P.nlat) (hp : ip < P.nphi) :
    ∃ c, g.getR_th_ph (if E.useCheb then 0 else P.nx - 1) it ip = .ok c ∧ c.x0 = fin q.L ∧ invR P.cl g.cl c.x0 = fin 0 := by
  have hn : 2 ≤ P.nx := by
    have := hS.sizes.nx_min
    split_ifs at this <;> omega
  have hx : (if E.useCheb then 0 else P.nx - 1) < P.nx := by split_ifs <;> omega
  have hpt : radPt E.useCheb P.nx q.lo q.up (if E.useCheb then 0 else P.nx - 1) = q.L := by
    cases hc : E.useCheb with
    | true =>
      simp only [radPt, if_true, chebPt]
      rw [hup]
      norm_num
      ring
    | false =>
      have h1 : ((P.nx : ℝ) - 1) ≠ 0 := by
        have : (2 : ℝ) ≤ P.nx := by exact_mod_cast hn
        linarith
      simp only [radPt, Bool.false_eq_true, if_false]
      rw [Nat.cast_sub (by omega), Nat.cast_one, mul_div_cancel₀ _ h1, hup]
      ring
  refine ⟨_, hS.coords hq hE hx ht hp, by rw [hpt], ?_⟩
  dsimp only
  rw [hpt, hq.L]
  unfold invR tenth
  rw [fin_sub, sub_self, fin_fabs, abs_zero, fin_lit]
  rw [if_pos ((fin_lt _ _).mpr (by norm_num))]
  exact fin_lit 0 |>.trans (by norm_num)

/-- non-vacuity: a spinning black hole, both radial methods -/
example (cheb : Bool) : ∃ (E : Env CR) (g : Grid CR), E.useCheb = cheb ∧ BuiltGrid E demoP g ∧ ∀ it ip, it < 8 → ip < 16 →
    ∃ c, g.getR_th_ph (if cheb then 0 else 32) it ip = .ok c ∧ c.x0 = fin 100 ∧ invR demoP.cl g.cl c.x0 = fin 0 := by
  obtain ⟨E, x, A, g, e, h1, h2, h3, h4, h5, h6, h7⟩ := demo_setup true false cheb
  refine ⟨E, g, h3, h5.toBuiltGrid, fun it ip ht hp => ?_⟩
  obtain ⟨c, k1, k2, k3⟩ := C115_outermost_shell_is_infinity h5.toBuiltGrid demo_is h4 rfl (it := it) (ip := ip) ht hp
  rw [h3] at k1
  exact ⟨c, k1, k2, k3⟩

/-! ## Floating point -/

/-- The format stores the whole numbers up to `n` exactly. -/
def Format.Counts (φ : Format) (n : ℕ) : Prop := ∀ k : ℕ, k ≤ n → φ.val (Scalar.lit (k : ℚ)) = some (k : ℝ)

/-- size of the rounding error of the outermost radius: `n` points, compactification length `L` -/
noncomputable def scriH (useCheb : Bool) (n : ℕ) (L : ℝ) : ℝ := if useCheb then 17 * (1 + L) else 4 * (n + L)

/-- size of the rounding error of the outermost inverse radius, relative to that length -/
noncomputable def scriK (useCheb : Bool) (n : ℕ) (L : ℝ) : ℝ := scriH useCheb n L / L + 5

section
variable {φ : Format}

theorem Scri.last {lo L : ℝ} {a b : φ.T} {n : ℕ} {nd : Bool} (hn : 8 ≤ n) (hW : n < W) (hlo : φ.val a = some lo) (hup : φ.val b = some L) (h0 : 0 < lo)
    (hL : lo < L) (hc : φ.Counts n) (he : φ.eps * (n + L) ≤ 1 / 16) (hO : 2 * (L + 1) ≤ φ.Omega) :
    ∃ R, φ.val ((FD.mk' n a b nd).pt (n - 1)) = some R ∧ |R - L| ≤ 4 * (φ.eps * (n + L)) := by
  have e0 := φ.eps_nonneg
  have hnR : (8 : ℝ) ≤ n := by exact_mod_cast hn
  obtain ⟨m, hm⟩ : ∃ m : ℝ, m = (n : ℝ) - 1 := ⟨_, rfl⟩
  have hm7 : (7 : ℝ) ≤ m := by linarith
  have hcm : φ.val (dbl (n - 1)) = some m := by
    rw [hm]
    have := hc (n - 1) (by omega)
    rw [show (((n - 1 : ℕ) : ℕ) : ℝ) = (n : ℝ) - 1 by rw [Nat.cast_sub (by omega), Nat.cast_one]] at this
    exact this
  obtain ⟨e, hee⟩ : ∃ e, e = φ.eps := ⟨_, rfl⟩
  rw [← hee] at e0 he ⊢
  have heL : e * L ≤ 1 / 16 := by nlinarith
  have heS : e * (1 + L) ≤ e * (n + L) := by nlinarith
  have heS2 : e * (2 + L) ≤ e * (n + L) := by nlinarith
  -- the difference
  obtain ⟨u, hu, hu'⟩ := φ.faithful.sub b a L lo hup hlo (by rw [abs_of_pos (by linarith)]; linarith)
  rw [← hee, abs_of_pos (by linarith : 0 < L - lo)] at hu'
  have hu1 : |u - (L - lo)| ≤ 1 / 16 := by nlinarith
  have hu2 : |u| ≤ L + 1 := by
    have := abs_le.mp hu1
    rw [abs_le]
    constructor <;> linarith
  -- the spacing
  have hum : |u / m| ≤ L + 1 := by
    rw [abs_div, abs_of_pos (by linarith : 0 < m), div_le_iff₀ (by linarith)]
    nlinarith
  obtain ⟨d, hd, hd'⟩ := φ.faithful.div _ _ u m hu hcm (by linarith) (hum.trans (by linarith))
  rw [← hee] at hd'
  have hdm : |d * m - u| ≤ e * (n + L) := by
    have : d * m - u = (d - u / m) * m := by field_simp
    rw [this, abs_mul, abs_of_pos (by linarith : 0 < m)]
    calc |d - u / m| * m ≤ e * (1 + |u / m|) * m := by gcongr
      _ = e * (m + |u|) := by
        rw [abs_div, abs_of_pos (by linarith : 0 < m)]
        field_simp
      _ ≤ _ := mul_le_mul_of_nonneg_left (by linarith) e0
  have hdm2 : |d * m| ≤ L + 1 := by
    have h1 := abs_le.mp (hdm.trans he)
    have h2 := abs_le.mp hu1
    rw [abs_le]
    constructor <;> linarith
  -- the distance
  obtain ⟨p, hp, hp'⟩ := φ.faithful.mul _ _ d m hd hcm (hdm2.trans (by linarith))
  rw [← hee] at hp'
  have hp1 : |p - d * m| ≤ e * (n + L) := hp'.trans (le_trans (mul_le_mul_of_nonneg_left (by linarith) e0) heS2)
  have h3 : |p + lo - L| ≤ 3 * (e * (n + L)) := by
    have h1 := abs_le.mp hp1
    have h2 := abs_le.mp hdm
    have h3 := abs_le.mp hu'
    have h4 : e * (1 + (L - lo)) ≤ e * (1 + L) := by gcongr; linarith
    rw [abs_le]
    constructor <;> linarith
  have h4 : |p + lo| ≤ L + 1 := by
    have := abs_le.mp h3
    rw [abs_le]
    constructor <;> linarith
  obtain ⟨R, hR, hR'⟩ := φ.faithful.add _ _ p lo hp hlo (h4.trans (by linarith))
  rw [← hee] at hR'
  refine ⟨R, ?_, ?_⟩
  · have hus : usub n 1 = n - 1 := by
      exact usub_of_le hW (by omega)
    show φ.val ((b - a) / dbl (usub n 1) * dbl (n - 1) + a) = _
    rw [hus]
    exact hR
  · have h5 : |R - (p + lo)| ≤ e * (n + L) := hR'.trans (le_trans (mul_le_mul_of_nonneg_left (by linarith) e0) heS2)
    have h6 := abs_le.mp h5
    have h7 := abs_le.mp h3
    rw [abs_le]
    constructor <;> linarith

theorem Scri.inv {L R : ℝ} {c x : φ.T} {n : ℕ} {H : ℝ} (hn : 2 ≤ n) (hH : 0 ≤ H) (hcl : φ.val c = some L) (hL : 0 < L) (hx : φ.val x = some R)
    (hR : |R - L| ≤ φ.eps * H) (hc : φ.Counts n) (he : φ.eps * (n + L) ≤ 1 / 16) (hk1 : φ.eps * (H / L + 5) ≤ 1 / 2)
    (hk2 : φ.eps * (H / L + 5) ≤ L / 2) (hO : 2 * (L + 1) ≤ φ.Omega) (htie : φ.val (Scalar.fabs (x - c)) ≠ φ.val (tenth 16))
    (hz : ∀ z, φ.val (1 - x / c) = some z → z ≠ 0 ∧ |R / z| ≤ φ.Omega) :
    ∃ w, φ.val (invR c c x) = some w ∧ |w| ≤ φ.eps * (4 * (H / L + 5) / L + 3) := by
  have e0 := φ.eps_nonneg
  have hnR : (2 : ℝ) ≤ n := by exact_mod_cast hn
  obtain ⟨e, hee⟩ : ∃ e, e = φ.eps := ⟨_, rfl⟩
  obtain ⟨K, hK⟩ : ∃ K, K = H / L + 5 := ⟨_, rfl⟩
  have hKL : K * L = H + 5 * L := by
    rw [hK]
    field_simp
  rw [← hee] at e0 hR he ⊢
  rw [← hee, ← hK] at hk1 hk2
  rw [← hK]
  have hKp : 0 < K := by
    rw [hK]
    positivity
  have hRL : |R - L| ≤ L / 2 := by
    refine hR.trans ?_
    have : e * K * L ≤ 1 / 2 * L := by gcongr
    have : e * (K * L) ≤ 1 / 2 * L := by linarith
    rw [hKL] at this
    nlinarith [mul_nonneg e0 hL.le]
  have hRb := abs_le.mp hRL
  have heL : e * L ≤ 1 / 16 := by nlinarith
  have he8 : e * 2 ≤ 1 / 16 := by nlinarith
  -- the comparisons
  obtain ⟨y, hy, hy'⟩ := φ.faithful.sub x c R L hx hcl (hRL.trans (by linarith))
  have hy2 := φ.faithful.fabs _ _ hy
  have hten : ∃ t, φ.val (tenth 16) = some t := by
    have h1 : |(((1 / (10 ^ 16 : ℚ) : ℚ) : ℝ))| ≤ φ.Omega := by
      push_cast
      rw [abs_of_pos (by positivity)]
      norm_num
      linarith
    obtain ⟨t, h2, _⟩ := φ.faithful.lit _ h1
    exact ⟨t, h2⟩
  obtain ⟨t, ht⟩ := hten
  have hne : |y| ≠ t := by
    intro hh
    apply htie
    rw [hy2, ht, hh]
  have hlt1 := φ.faithful.lt _ _ _ _ hy2 ht
  have hlt2 := φ.faithful.lt _ _ _ _ ht hy2
  have h00 : φ.val (0 : φ.T) = some 0 := by
    have := hc 0 (by omega)
    rw [show ((0 : ℕ) : ℝ) = 0 from Nat.cast_zero] at this
    exact this
  have h11 : φ.val (1 : φ.T) = some 1 := by
    have := hc 1 (by omega)
    rw [show ((1 : ℕ) : ℝ) = 1 from Nat.cast_one] at this
    exact this
  have hCn : 0 ≤ e * (4 * K / L + 3) := by positivity
  rcases lt_or_gt_of_ne hne with hl | hl
  · refine ⟨0, ?_, by rw [abs_zero]; exact hCn⟩
    unfold invR
    rw [if_pos (hlt1.mpr hl)]
    exact h00
  · have hn1 : ¬ Scalar.lt (Scalar.fabs (x - c)) (tenth 16) = true := fun hh => absurd (hlt1.mp hh) (by linarith)
    -- the quotient
    have hq1 : |R / L| ≤ 3 / 2 := by
      rw [abs_of_nonneg (div_nonneg (by linarith) hL.le), div_le_iff₀ hL]
      linarith
    obtain ⟨s, hs, hs'⟩ := φ.faithful.div x c R L hx hcl hL.ne' (hq1.trans (by linarith))
    rw [← hee] at hs'
    have hs1 : |s - R / L| ≤ e * (5 / 2) := hs'.trans (mul_le_mul_of_nonneg_left (by linarith) e0)
    have hRL1 : |R / L - 1| ≤ e * H / L := by
      rw [show R / L - 1 = (R - L) / L by field_simp, abs_div, abs_of_pos hL]
      gcongr
    have hK4 : e * H / L = e * (K - 5) := by
      rw [hK]
      ring
    rw [hK4] at hRL1
    have hs2 : |1 - s| ≤ e * (K - 5 / 2) := by
      have h1 := abs_le.mp hs1
      have h2 := abs_le.mp hRL1
      rw [abs_le]
      constructor <;> linarith
    have hs3 : |1 - s| ≤ 1 / 2 := hs2.trans (by nlinarith)
    obtain ⟨z, hzv, hz'⟩ := φ.faithful.sub _ _ 1 s h11 hs (hs3.trans (by linarith))
    rw [← hee] at hz'
    obtain ⟨hz0, hzO⟩ := hz z hzv
    have hz1 : |z| ≤ e * K := by
      have h1 : |z - (1 - s)| ≤ e * (3 / 2) := hz'.trans (mul_le_mul_of_nonneg_left (by linarith) e0)
      have h2 := abs_le.mp h1
      have h3 := abs_le.mp hs2
      rw [abs_le]
      constructor <;> linarith
    have hzp : 0 < |z| := abs_pos.mpr hz0
    -- the radius
    obtain ⟨r, hr, hr'⟩ := φ.faithful.div _ _ R z hx hzv hz0 hzO
    rw [← hee] at hr'
    have hRp : L / 2 ≤ |R| := by rw [abs_of_nonneg (by linarith)]; linarith
    have hq : L / 2 / |z| ≤ |R / z| := by rw [abs_div]; gcongr
    have hq1 : 1 ≤ |R / z| := by
      refine le_trans ?_ hq
      rw [le_div_iff₀ hzp]
      linarith
    have hr1 : |R / z| / 2 ≤ |r| := by
      have h1 : |R / z| - |r| ≤ |r - R / z| := by
        have := abs_sub_abs_le_abs_sub (R / z) r
        rwa [abs_sub_comm] at this
      nlinarith
    have hr0 : r ≠ 0 := by
      intro hh
      rw [hh, abs_zero] at hr1
      linarith
    have hi1 : |1 / r| ≤ 4 * (e * K) / L := by
      rw [abs_div, abs_one, div_le_div_iff₀ (by linarith) hL, one_mul]
      have h1 : L / 4 ≤ |r| * |z| := by
        have : L / 2 / |z| / 2 ≤ |r| := by linarith
        have := mul_le_mul_of_nonneg_right this hzp.le
        rw [show L / 2 / |z| / 2 * |z| = L / 4 by field_simp; norm_num] at this
        exact this
      nlinarith [abs_nonneg r]
    have hi2 : |1 / r| ≤ 2 := by
      rw [abs_div, abs_one, div_le_iff₀ (by linarith)]
      linarith
    obtain ⟨w, hw, hw'⟩ := φ.faithful.div _ _ 1 r h11 hr hr0 (hi2.trans (by linarith))
    rw [← hee] at hw'
    refine ⟨w, ?_, ?_⟩
    · unfold invR Grid.R_to_r
      rw [if_neg hn1, if_pos (hlt2.mpr hl)]
      exact hw
    · have h1 : |w| ≤ |1 / r| + e * (1 + |1 / r|) := by
        have h2 := abs_add_le (w - 1 / r) (1 / r)
        rw [sub_add_cancel] at h2
        linarith
      have h2 : e * (1 + |1 / r|) ≤ e * 3 := mul_le_mul_of_nonneg_left (by linarith) e0
      have h3 : e * (4 * K / L + 3) = 4 * (e * K) / L + e * 3 := by ring
      rw [h3]
      linarith

set_option maxHeartbeats 1000000 in
theorem Scri.first {lo L : ℝ} {a b : φ.T} {n : ℕ} (hn : 2 ≤ n) (hlo : φ.val a = some lo) (hup : φ.val b = some L) (h0 : 0 < lo)
    (hL : lo < L) (hc : φ.Counts n) (he : φ.eps * (n + L) ≤ 1 / 16) (hO : n + 2 * (L + 2) ≤ φ.Omega) :
    ∃ R, φ.val ((b - a) / 2 * Scalar.cos (Scalar.pi * dbl 0 / (dbl n - 1)) + (b + a) / 2) = some R ∧ |R - L| ≤ φ.eps * (17 * (1 + L)) := by
  have e0 := φ.eps_nonneg
  have hnR : (2 : ℝ) ≤ n := by exact_mod_cast hn
  have hcn : φ.val (dbl n) = some (n : ℝ) := hc n (le_refl _)
  have hc0 : φ.val (dbl 0) = some 0 := by
    have := hc 0 (by omega)
    rw [show ((0 : ℕ) : ℝ) = 0 from Nat.cast_zero] at this
    exact this
  have hc1 : φ.val (1 : φ.T) = some 1 := by
    have := hc 1 (by omega)
    rw [show ((1 : ℕ) : ℝ) = 1 from Nat.cast_one] at this
    exact this
  have hc2 : φ.val (2 : φ.T) = some 2 := by
    have := hc 2 hn
    rw [show ((2 : ℕ) : ℝ) = 2 from Nat.cast_ofNat] at this
    exact this
  obtain ⟨e, hee⟩ : ∃ e, e = φ.eps := ⟨_, rfl⟩
  rw [← hee] at e0 he ⊢
  obtain ⟨σ, hσ⟩ : ∃ σ, σ = e * (1 + L) := ⟨_, rfl⟩
  have hLp : 0 < L := h0.trans hL
  have heσ : e ≤ σ := by rw [hσ]; nlinarith
  have heLσ : e * L ≤ σ := by rw [hσ]; nlinarith
  have hσ2 : e + e * L = σ := by rw [hσ]; ring
  have hs16 : σ ≤ 1 / 16 := by rw [hσ]; nlinarith
  have he32 : e ≤ 1 / 32 := by nlinarith
  have hen : e * n ≤ 1 / 16 := by nlinarith
  -- half the length
  obtain ⟨u, hu, hu'⟩ := φ.faithful.sub b a L lo hup hlo (by rw [abs_of_pos (by linarith)]; linarith)
  rw [← hee, abs_of_pos (by linarith : 0 < L - lo)] at hu'
  have hu1 : |u - (L - lo)| ≤ σ := hu'.trans (by rw [hσ]; exact mul_le_mul_of_nonneg_left (by linarith) e0)
  have hu2 : |u| ≤ L + 1 := by
    have := abs_le.mp hu1
    rw [abs_le]
    constructor <;> linarith
  have hu3 : |u / 2| ≤ (L + 1) / 2 := by
    rw [abs_div, abs_of_pos (by norm_num : (0:ℝ) < 2)]
    linarith
  obtain ⟨j, hj, hj'⟩ := φ.faithful.div _ _ u 2 hu hc2 (by norm_num) (hu3.trans (by linarith))
  rw [← hee] at hj'
  have hj1 : |j - u / 2| ≤ 2 * σ := by
    refine hj'.trans ((mul_le_mul_of_nonneg_left (show 1 + |u / 2| ≤ 2 * (1 + L) by linarith) e0).trans (le_of_eq ?_))
    rw [hσ]
    ring
  have hj2 : |j - (L - lo) / 2| ≤ 5 / 2 * σ := by
    have h1 := abs_le.mp hj1
    have h2 := abs_le.mp hu1
    rw [abs_le]
    constructor <;> linarith
  have hj3 : |j| ≤ L / 2 + 1 := by
    have := abs_le.mp hj2
    rw [abs_le]
    constructor <;> linarith
  -- the cosine
  obtain ⟨p, hp, -⟩ := φ.faithful.pi (by rw [abs_of_pos Real.pi_pos]; linarith [Real.pi_le_four])
  obtain ⟨z, hz, hz'⟩ := φ.faithful.mul _ _ p 0 hp hc0 (by rw [mul_zero, abs_zero]; linarith)
  rw [← hee, mul_zero, sub_zero, abs_zero, add_zero, mul_one] at hz'
  obtain ⟨m, hm, hm'⟩ := φ.faithful.sub _ _ (n : ℝ) 1 hcn hc1 (by rw [abs_of_pos (by linarith)]; linarith)
  rw [← hee, abs_of_pos (by linarith : (0 : ℝ) < n - 1)] at hm'
  have hm1 : 1 / 2 ≤ m := by
    have := (abs_le.mp hm').1
    have h2 : e * (1 + ((n : ℝ) - 1)) = e * n := by ring
    rw [h2] at this
    linarith
  have hq0 : |z / m| ≤ 2 * e := by
    rw [abs_div, abs_of_pos (by linarith : 0 < m), div_le_iff₀ (by linarith)]
    nlinarith
  obtain ⟨q, hq, hq'⟩ := φ.faithful.div _ _ z m hz hm (by linarith) (hq0.trans (by linarith))
  rw [← hee] at hq'
  have hq1 : |q| ≤ 4 * e := by
    have h1 : |q - z / m| ≤ 2 * e := hq'.trans (by nlinarith)
    have h2 := abs_le.mp h1
    have h3 := abs_le.mp hq0
    rw [abs_le]
    constructor <;> linarith
  obtain ⟨c, hcv, hc'⟩ := φ.faithful.cos _ q hq ((Real.abs_cos_le_one q).trans (by linarith))
  rw [← hee] at hc'
  have hcos : 1 - Real.cos q ≤ 4 * e := by
    have h1 := Real.one_sub_sq_div_two_le_cos (x := q)
    have h2 : q ^ 2 ≤ |q| := by
      rw [← sq_abs]
      nlinarith [abs_nonneg q]
    linarith
  have hc3 : |c - 1| ≤ 6 * e := by
    have h1 : |c - Real.cos q| ≤ 2 * e := hc'.trans (by nlinarith [Real.abs_cos_le_one q])
    have h2 := abs_le.mp h1
    have h3 := Real.cos_le_one q
    rw [abs_le]
    constructor <;> linarith
  -- the product
  have hjc : |j * c - j| ≤ 6 * σ := by
    rw [show j * c - j = j * (c - 1) by ring, abs_mul]
    calc |j| * |c - 1| ≤ (L / 2 + 1) * (6 * e) := mul_le_mul hj3 hc3 (abs_nonneg _) (by linarith)
      _ ≤ 6 * σ := by rw [hσ]; nlinarith
  have hjc2 : |j * c| ≤ L + 2 := by
    have h1 := abs_le.mp hjc
    have h2 := abs_le.mp hj3
    rw [abs_le]
    constructor <;> linarith
  obtain ⟨v, hv, hv'⟩ := φ.faithful.mul _ _ j c hj hcv (hjc2.trans (by linarith))
  rw [← hee] at hv'
  have hv1 : |v - j * c| ≤ 3 * σ :=
    hv'.trans ((mul_le_mul_of_nonneg_left (show 1 + |j * c| ≤ 3 * (1 + L) by linarith) e0).trans (le_of_eq (by rw [hσ]; ring)))
  -- the middle
  obtain ⟨s, hs, hs'⟩ := φ.faithful.add b a L lo hup hlo (by rw [abs_of_pos (by linarith)]; linarith)
  rw [← hee, abs_of_pos (by linarith : 0 < L + lo)] at hs'
  have hs1 : |s - (L + lo)| ≤ 2 * σ :=
    hs'.trans ((mul_le_mul_of_nonneg_left (show 1 + (L + lo) ≤ 2 * (1 + L) by linarith) e0).trans (le_of_eq (by rw [hσ]; ring)))
  have hs2 : |s / 2| ≤ L + 1 := by
    rw [abs_div, abs_of_pos (by norm_num : (0:ℝ) < 2), div_le_iff₀ (by norm_num), abs_le]
    have := abs_le.mp hs1
    constructor <;> linarith
  obtain ⟨h, hh, hh'⟩ := φ.faithful.div _ _ s 2 hs hc2 (by norm_num) (hs2.trans (by linarith))
  rw [← hee] at hh'
  have hh1 : |h - s / 2| ≤ 2 * σ :=
    hh'.trans ((mul_le_mul_of_nonneg_left (show 1 + |s / 2| ≤ 2 * (1 + L) by linarith) e0).trans (le_of_eq (by rw [hσ]; ring)))
  -- the sum
  have h3 : |v + h - L| ≤ 29 / 2 * σ := by
    have h1 := abs_le.mp hv1
    have h2 := abs_le.mp hjc
    have h3 := abs_le.mp hj2
    have h4 := abs_le.mp hs1
    have h5 := abs_le.mp hh1
    rw [abs_le]
    constructor <;> linarith
  have h4 : |v + h| ≤ L + 1 := by
    have := abs_le.mp h3
    rw [abs_le]
    constructor <;> linarith
  obtain ⟨R, hR, hR'⟩ := φ.faithful.add _ _ v h hv hh (h4.trans (by linarith))
  rw [← hee] at hR'
  refine ⟨R, hR, ?_⟩
  have h5 : |R - (v + h)| ≤ 2 * σ :=
    hR'.trans ((mul_le_mul_of_nonneg_left (show 1 + |v + h| ≤ 2 * (1 + L) by linarith) e0).trans (le_of_eq (by rw [hσ]; ring)))
  have h6 := abs_le.mp h5
  have h7 := abs_le.mp h3
  rw [show e * (17 * (1 + L)) = 17 * σ by rw [hσ]; ring, abs_le]
  constructor <;> linarith

/-- the last stored radius with finite differences -/
theorem BuiltGrid.last_fd {α : Type} [Scalar α] {E : Env α} {P : ParamRec α} {g : Grid α} (hS : BuiltGrid E P g) (hc : E.useCheb = false)
    {it ip : ℕ} (ht : it < P.nlat) (hp : ip < P.nphi) :
    ∃ c, g.getR_th_ph (P.nx - 1) it ip = .ok c ∧ c.x0 = (FD.mk' P.nx P.Rmin P.Rmax E.ndebug).pt (P.nx - 1) := by
  have hn : 8 ≤ P.nx := by
    have := hS.sizes.nx_min
    rw [hc] at this
    exact this
  refine ⟨_, hS.wf.getR_eq (hS.inR (by omega) ht hp), ?_⟩
  dsimp only
  rw [hS.radial]
  unfold Grid.radialOf
  rw [if_neg (by rw [hc]; simp)]
  rfl

/-- the first stored radius with Chebyshev points -/
theorem BuiltGrid.first_cheb {α : Type} [Scalar α] {E : Env α} {P : ParamRec α} {g : Grid α} (hS : BuiltGrid E P g) (hc : E.useCheb = true)
    {it ip : ℕ} (ht : it < P.nlat) (hp : ip < P.nphi) :
    ∃ c, g.getR_th_ph 0 it ip = .ok c ∧
      c.x0 = (P.Rmax - P.Rmin) / 2 * Scalar.cos (Scalar.pi * dbl 0 / (dbl P.nx - 1)) + (P.Rmax + P.Rmin) / 2 := by
  have hn : 2 ≤ P.nx := by
    have := hS.sizes.nx_min
    rw [hc] at this
    exact this
  refine ⟨_, hS.wf.getR_eq (hS.inR (by omega) ht hp), ?_⟩
  dsimp only
  rw [hS.radial]
  unfold Grid.radialOf
  rw [if_pos hc]
  exact gv_tab (by omega)

/-- C115: In every floating-point format (whole numbers up to the number of points are exact, the operations are rounded by
`eps(1+|r|)`), on every grid whose outer boundary is the compactification length `L`, the radius stored for the outermost shell (the last one
with finite differences, the first one with Chebyshev points) is `L` up to `eps H`, `H = 4(n+L)` resp. `17(1+L)`, and the inverse
radius the equations of motion use there is zero up to `eps (4 K/L + 3)`, `K = H/L + 5`, whether or not the program notices that it is at
infinity: provided that `|R-L|` is not exactly the threshold `1e-16`, and that `R/(1-R/L)` neither divides by zero nor overflows. -/
theorem C115_outermost_inverse_radius_in_floating_point_partial {E : Env φ.T} {P : ParamRec φ.T} {g : Grid φ.T} (hS : BuiltGrid E P g)
    {lo L : ℝ} (hlo : φ.val P.Rmin = some lo) (hup : φ.val P.Rmax = some L) (hcl : P.cl = P.Rmax) (h0 : 0 < lo)
    (hL : lo < L) (hct : φ.Counts P.nx) (he : φ.eps * (P.nx + L) ≤ 1 / 16) (hk : φ.eps * scriK E.useCheb P.nx L ≤ min 1 L / 2)
    (hO : P.nx + 2 * (L + 2) ≤ φ.Omega) {it ip : ℕ} (ht : it < P.nlat) (hp : ip < P.nphi) :
    ∃ c R, g.getR_th_ph (if E.useCheb then 0 else P.nx - 1) it ip = .ok c ∧ φ.val c.x0 = some R ∧ |R - L| ≤ φ.eps * scriH E.useCheb P.nx L ∧
      (φ.val (Scalar.fabs (c.x0 - P.cl)) ≠ φ.val (tenth 16) → (∀ z, φ.val (1 - c.x0 / P.cl) = some z → z ≠ 0 ∧ |R / z| ≤ φ.Omega) →
        ∃ w, φ.val (invR P.cl g.cl c.x0) = some w ∧ |w| ≤ φ.eps * (4 * scriK E.useCheb P.nx L / L + 3)) := by
  have hn : 2 ≤ P.nx := by
    have := hS.sizes.nx_min
    split_ifs at this <;> omega
  have hnR : (2 : ℝ) ≤ P.nx := by exact_mod_cast hn
  have hW : P.nx < W := by
    have h1 := hS.sizes.fits
    have h2 := hS.sizes.nlat_pos
    have h3 := hS.sizes.nphi_pos
    calc P.nx = P.nx * 1 * 1 := by ring
      _ ≤ P.nx * P.nlat * P.nphi := Nat.mul_le_mul (Nat.mul_le_mul (le_refl _) h2) h3
      _ < W := h1
  have key : ∃ c R, g.getR_th_ph (if E.useCheb then 0 else P.nx - 1) it ip = .ok c ∧ φ.val c.x0 = some R ∧
      |R - L| ≤ φ.eps * scriH E.useCheb P.nx L := by
    cases hc : E.useCheb with
    | true =>
      obtain ⟨c, h1, h2⟩ := hS.first_cheb hc ht hp
      obtain ⟨R, h3, h4⟩ := Scri.first hn hlo hup h0 hL hct he hO
      exact ⟨c, R, h1, by rw [h2]; exact h3, h4⟩
    | false =>
      have hn8 : 8 ≤ P.nx := by
        have := hS.sizes.nx_min
        rw [hc] at this
        exact this
      obtain ⟨c, h1, h2⟩ := hS.last_fd hc ht hp
      obtain ⟨R, h3, h4⟩ := Scri.last (nd := E.ndebug) hn8 hW hlo hup h0 hL hct he (by linarith)
      refine ⟨c, R, h1, by rw [h2]; exact h3, h4.trans (le_of_eq ?_)⟩
      show _ = φ.eps * (4 * (P.nx + L))
      ring
  obtain ⟨c, R, h1, h2, h3⟩ := key
  have hH : 0 ≤ scriH E.useCheb P.nx L := by
    unfold scriH
    split_ifs <;> linarith
  refine ⟨c, R, h1, h2, h3, fun h5 h6 => ?_⟩
  rw [hS.cl]
  exact Scri.inv hn hH (by rw [hcl]; exact hup) (h0.trans hL) h2 h3 hct he
    (hk.trans (by have := min_le_left 1 L; linarith)) (hk.trans (by have := min_le_right 1 L; linarith)) (by linarith) h5 h6

end

/-! ## IEEE binary64 -/

/-- a rounding to the nearest binary64 number -/
theorem rnd64 {x : ℝ} (s : ℤ) (k : ℤ) (h1 : (2 : ℝ) ^ s ≤ |x|) (h2 : |x| < (2 : ℝ) ^ (s + 1)) (hs : -1022 ≤ s)
    (hk : |x / (2 : ℝ) ^ (s - 52) - k| < 1 / 2) : rndBin 53 1074 x = k * (2 : ℝ) ^ (s - 52) := by
  have hx : 0 < |x| := lt_of_lt_of_le (by positivity) h1
  have hlog : Int.log 2 |x| = s := by
    apply le_antisymm
    · have := (Int.lt_zpow_iff_log_lt (b := 2) (by norm_num) (x := s + 1) hx).mp (by push_cast; exact h2)
      omega
    · exact (Int.zpow_le_iff_le_log (b := 2) (by norm_num) hx).mp (by push_cast; exact h1)
  have hu : ulp 53 1074 x = (2 : ℝ) ^ (s - 52) := by
    unfold ulp
    rw [hlog, max_eq_left (by push_cast; omega)]
    congr 1
    push_cast
    ring
  unfold rndBin
  rw [hu]
  congr 1
  have hr : round (x / (2 : ℝ) ^ (s - 52)) = k := by
    rw [round_eq, Int.floor_eq_iff]
    have := abs_lt.mp hk
    constructor <;> linarith
  rw [hr]

/-- whole numbers below `2^53` are binary64 numbers -/
theorem binary64_counts : binary64.Counts (2 ^ 53 - 1) := by
  intro k hk
  have hO : |((k : ℚ) : ℝ)| ≤ (2 - 2⁻¹ ^ 52) * 2 ^ 1023 := by
    have : (k : ℝ) ≤ 2 ^ 53 := by
      have : k ≤ 2 ^ 53 := by omega
      exact_mod_cast this
    rw [Rat.cast_natCast, abs_of_nonneg (by positivity)]
    refine this.trans ?_
    have h1 : (2 : ℝ) ^ 53 ≤ 2 ^ 1023 := pow_le_pow_right₀ (by norm_num) (by norm_num)
    have h2 : (0 : ℝ) ≤ 2 ^ 1023 := by positivity
    have h3 : (1 : ℝ) ≤ 2 - 2⁻¹ ^ 52 := by norm_num
    exact h1.trans (le_mul_of_one_le_left h2 h3)
  show CR.toReal? (store (rndBin 53 1074) ((2 - 2⁻¹ ^ 52) * 2 ^ 1023) ((k : ℚ) : ℝ)) = _
  unfold store
  rw [if_pos hO]
  show some _ = some _
  congr 1
  rw [Rat.cast_natCast]
  rcases Nat.eq_zero_or_pos k with h0 | h0
  · subst h0
    unfold rndBin
    simp
  · have hk0 : (0 : ℝ) < k := by exact_mod_cast h0
    obtain ⟨s, hs⟩ : ∃ s : ℕ, s = Nat.log 2 k := ⟨_, rfl⟩
    have hs1 : 2 ^ s ≤ k := by rw [hs]; exact Nat.pow_log_le_self 2 (by omega)
    have hs2 : k < 2 ^ (s + 1) := by rw [hs]; exact Nat.lt_pow_succ_log_self (by norm_num) k
    have hs3 : s ≤ 52 := by
      by_contra hh
      have : 2 ^ 53 ≤ 2 ^ s := Nat.pow_le_pow_right (by norm_num) (by omega)
      omega
    have e1 : (2 : ℝ) ^ ((s : ℤ) - 52) = ((2 : ℝ) ^ (52 - s))⁻¹ := by
      rw [← zpow_natCast, ← zpow_neg]
      congr 1
      omega
    have := rnd64 (x := (k : ℝ)) (s : ℤ) ((k * 2 ^ (52 - s) : ℕ) : ℤ) ?_ ?_ (by omega) ?_
    · rw [this, e1]
      push_cast
      field_simp
    · rw [abs_of_pos hk0, zpow_natCast]
      exact_mod_cast hs1
    · rw [abs_of_pos hk0]
      have : (2 : ℝ) ^ ((s : ℤ) + 1) = ((2 ^ (s + 1) : ℕ) : ℝ) := by push_cast; rw [← zpow_natCast]; push_cast; rfl
      rw [this]
      exact_mod_cast hs2
    · rw [e1, div_inv_eq_mul]
      push_cast
      rw [sub_self, abs_zero]
      norm_num

section ieee
variable {a b : binary64.T} {x y : ℝ}

theorem range64 {x : ℝ} (h : |x| ≤ 2 ^ 100) : |x| ≤ (2 - 2⁻¹ ^ 52) * 2 ^ 1023 := by
  have h1 : (2 : ℝ) ^ 100 ≤ 2 ^ 1023 := pow_le_pow_right₀ (by norm_num) (by norm_num)
  have h2 : (0 : ℝ) ≤ 2 ^ 1023 := by positivity
  have h3 : (1 : ℝ) ≤ 2 - 2⁻¹ ^ 52 := by norm_num
  exact h.trans (h1.trans (le_mul_of_one_le_left h2 h3))

theorem store64 {x : ℝ} (h : |x| ≤ 2 ^ 100) :
    CR.toReal? (store (rndBin 53 1074) ((2 - 2⁻¹ ^ 52) * 2 ^ 1023) x) = some (rndBin 53 1074 x) := by
  unfold store
  rw [if_pos (range64 h)]
  rfl

theorem add64 (ha : binary64.val a = some x) (hb : binary64.val b = some y) (h : |x + y| ≤ 2 ^ 100) :
    binary64.val (a + b) = some (rndBin 53 1074 (x + y)) := by
  rw [show a = fin x from toReal_iff.mp ha, show b = fin y from toReal_iff.mp hb]
  exact store64 h

theorem sub64 (ha : binary64.val a = some x) (hb : binary64.val b = some y) (h : |x - y| ≤ 2 ^ 100) :
    binary64.val (a - b) = some (rndBin 53 1074 (x - y)) := by
  rw [show a = fin x from toReal_iff.mp ha, show b = fin y from toReal_iff.mp hb]
  exact store64 h

theorem mul64 (ha : binary64.val a = some x) (hb : binary64.val b = some y) (h : |x * y| ≤ 2 ^ 100) :
    binary64.val (a * b) = some (rndBin 53 1074 (x * y)) := by
  rw [show a = fin x from toReal_iff.mp ha, show b = fin y from toReal_iff.mp hb]
  exact store64 h

theorem div64 (ha : binary64.val a = some x) (hb : binary64.val b = some y) (hy : y ≠ 0) (h : |x / y| ≤ 2 ^ 100) :
    binary64.val (a / b) = some (rndBin 53 1074 (x / y)) := by
  rw [show a = fin x from toReal_iff.mp ha, show b = fin y from toReal_iff.mp hb]
  show CR.toReal? (reround (rndBin 53 1074) ((2 - 2⁻¹ ^ 52) * 2 ^ 1023) (fin x / fin y : CR)) = _
  rw [fin_div _ _ hy]
  exact store64 h

end ieee

/-- A black hole of mass 1 without spin (horizon at `r=2`, compactified `R=15/8`) on 8 radial points up to the compactification length 30;
the other parameters are those of the other examples. -/
noncomputable def scriP : ParamRec binary64.T :=
  { (demoP : ParamRec CR) with
    nx := 8
    cl := fin 30
    Rmin := fin (15 / 8)
    Rmax := fin 30
    bh_mass := fin 1
    bh_spin := fin 0 }

/-- what binary64 arithmetic makes of the outermost shell -/
theorem scri_values (nd : Bool) (x c : binary64.T) (hx : x = (FD.mk' 8 scriP.Rmin scriP.Rmax nd).pt 7) (hcl : c = scriP.cl) :
    binary64.val x = some (30 + 1 / 2 ^ 48) ∧ binary64.val (Scalar.fabs (x - c)) = some (1 / 2 ^ 48) ∧
    (∃ t, binary64.val (tenth 16) = some t ∧ t < 1 / 2 ^ 48) ∧
    binary64.val (1 - x / c) = some (-(1 / 2 ^ 52)) ∧ binary64.val (x / (1 - x / c)) = some (-(30 * 2 ^ 48 + 1) * 2 ^ 4) ∧
    binary64.val (1 / (x / (1 - x / c))) = some (-4803839602528528 / 2 ^ 109) := by
  have hlo : binary64.val scriP.Rmin = some (15 / 8) := rfl
  have hup : binary64.val scriP.Rmax = some 30 := rfl
  have hc : binary64.val c = some 30 := by rw [hcl]; rfl
  have h7 : binary64.val (dbl 7) = some 7 := by
    have := binary64_counts 7 (by norm_num)
    rw [show ((7 : ℕ) : ℝ) = 7 by norm_num] at this
    exact this
  have h1 : binary64.val (1 : binary64.T) = some 1 := by
    have := binary64_counts 1 (by norm_num)
    rw [show ((1 : ℕ) : ℝ) = 1 by norm_num] at this
    exact this
  have s1 := sub64 hup hlo (by norm_num [abs_of_pos])
  rw [rnd64 4 (7916483719987200) (by norm_num [abs_of_pos]) (by norm_num [abs_of_pos]) (by norm_num) (by norm_num)] at s1
  have s2 := div64 s1 h7 (by norm_num) (by norm_num [abs_of_pos])
  rw [rnd64 2 (4523704982849829) (by norm_num [abs_of_pos]) (by norm_num [abs_of_pos]) (by norm_num) (by norm_num [abs_lt])] at s2
  have s3 := mul64 s2 h7 (by norm_num [abs_of_pos])
  rw [rnd64 4 (7916483719987201) (by norm_num [abs_of_pos]) (by norm_num [abs_of_pos]) (by norm_num) (by norm_num [abs_lt])] at s3
  have s4 := add64 s3 hlo (by norm_num [abs_of_pos])
  rw [rnd64 4 (8444249301319681) (by norm_num [abs_of_pos]) (by norm_num [abs_of_pos]) (by norm_num) (by norm_num [abs_lt])] at s4
  have hus : usub 8 1 = 7 := by decide
  have hxv : binary64.val x = some (30 + 1 / 2 ^ 48) := by
    rw [hx]
    show binary64.val ((scriP.Rmax - scriP.Rmin) / dbl (usub 8 1) * dbl 7 + scriP.Rmin) = _
    rw [hus, s4]
    norm_num
  have s5 := sub64 hxv hc (by norm_num [abs_of_pos])
  rw [rnd64 (-48) (4503599627370496) (by norm_num [abs_of_pos]) (by norm_num [abs_of_pos]) (by norm_num) (by norm_num [abs_lt])] at s5
  have s6 := div64 hxv hc (by norm_num) (by norm_num [abs_of_pos])
  rw [rnd64 0 (4503599627370497) (by norm_num [abs_of_pos]) (by norm_num [abs_of_pos]) (by norm_num) (by norm_num [abs_lt])] at s6
  have s7 := sub64 h1 s6 (by norm_num [abs_of_neg])
  rw [rnd64 (-52) (-4503599627370496) (by norm_num [abs_of_neg]) (by norm_num [abs_of_neg]) (by norm_num) (by norm_num [abs_lt])] at s7
  have s8 := div64 hxv s7 (by norm_num) (by norm_num [abs_of_neg])
  rw [rnd64 56 (-8444249301319681) (by norm_num [abs_of_neg]) (by norm_num [abs_of_neg]) (by norm_num) (by norm_num [abs_lt])] at s8
  have s9 := div64 h1 s8 (by norm_num) (by norm_num [abs_of_neg])
  rw [rnd64 (-57) (-4803839602528528) (by norm_num [abs_of_neg]) (by norm_num [abs_of_neg]) (by norm_num) (by norm_num [abs_lt])] at s9
  refine ⟨hxv, ?_, ?_, ?_, ?_, ?_⟩
  · rw [binary64.faithful.fabs _ _ s5]
    norm_num
  · obtain ⟨t, h2, h3⟩ := binary64.faithful.lit (1 / (10 ^ 16 : ℚ)) (range64 (by norm_num [abs_of_pos]))
    refine ⟨t, h2, ?_⟩
    have h4 := (abs_le.mp h3).2
    have h5 : binary64.eps = 2⁻¹ ^ 53 := rfl
    rw [h5] at h4
    norm_num [abs_of_pos] at h4 ⊢
    linarith
  · rw [s7]; norm_num
  · rw [s8]; norm_num
  · rw [s9]; norm_num

theorem scri_setup : ∃ (E : Env binary64.T) (g : Grid binary64.T), E.useCheb = false ∧ BuiltGrid E scriP g := by
  obtain ⟨E, x, A, h1, h2, h3, h4⟩ := exists_env true false false (nx := 8) (nl := 7) (nm := 7) (nlat := 8) (nphi := 16)
    (by omega) (by omega) (by omega)
  have hz : Sizes E.useCheb 8 7 8 16 := ⟨by rw [h3]; decide, by omega, by omega, by decide, by decide, by omega⟩
  obtain ⟨g, hg, _⟩ := @Grid.ctor_wf binary64.T binary64.inst E 8 7 7 8 16 h4.sized hz scriP.cl scriP.Rmin scriP.Rmax
  exact ⟨E, g, h3, ⟨h4.sized, hz, hg⟩⟩

/-- C115, the part that fails: in IEEE binary64 the outermost shell need not be infinity.  For a black hole of mass 1 on 8 finite-difference points
from the horizon up to the compactification length 30, the program stores a compactified radius greater than 30 for the outermost shell, does not
notice that it is at infinity, gives it a negative radius (`-1.35e17`) and a negative inverse radius. -/
theorem C115_negative_radius_in_binary64 : ∃ (E : Env binary64.T) (P : ParamRec binary64.T) (g : Grid binary64.T),
    BuiltGrid E P g ∧ E.useCheb = false ∧ P.nx = 8 ∧ P.cl = P.Rmax ∧ binary64.val P.cl = some 30 ∧ binary64.val P.bh_mass = some 1 ∧
    binary64.val P.bh_spin = some 0 ∧ binary64.val P.Rmin = some (compR 30 2) ∧ ∀ it ip, it < P.nlat → ip < P.nphi →
    ∃ c R r w, g.getR_th_ph (P.nx - 1) it ip = .ok c ∧ binary64.val c.x0 = some R ∧ 30 < R ∧
      binary64.val (Grid.R_to_r g.cl c.x0) = some r ∧ r < -10 ^ 17 ∧ binary64.val (invR P.cl g.cl c.x0) = some w ∧ w < 0 := by
  obtain ⟨E, g, hc, hS⟩ := scri_setup
  refine ⟨E, scriP, g, hS, hc, rfl, rfl, rfl, rfl, rfl, ?_, fun it ip ht hp => ?_⟩
  · rw [show compR 30 2 = 15 / 8 by unfold compR; norm_num]
    rfl
  · obtain ⟨c, h1, h2⟩ := hS.last_fd hc ht hp
    obtain ⟨v1, v2, ⟨t, v3, v3'⟩, v4, v5, v6⟩ := scri_values E.ndebug c.x0 g.cl h2 hS.cl
    have hn1 : ¬ Scalar.lt (Scalar.fabs (c.x0 - g.cl)) (tenth 16) = true := fun hh =>
      absurd ((binary64.faithful.lt _ _ _ _ v2 v3).mp hh) (by linarith)
    have hn2 : Scalar.lt (tenth 16) (Scalar.fabs (c.x0 - g.cl)) = true := (binary64.faithful.lt _ _ _ _ v3 v2).mpr v3'
    have hr : Grid.R_to_r g.cl c.x0 = c.x0 / (1 - c.x0 / g.cl) := by
      unfold Grid.R_to_r
      rw [if_pos hn2]
    have hw : binary64.val (invR scriP.cl g.cl c.x0) = some (-4803839602528528 / 2 ^ 109) := by
      rw [← hS.cl]
      unfold invR
      rw [if_neg hn1, hr]
      exact v6
    exact ⟨c, _, _, _, h1, v1, by norm_num, by rw [hr]; exact v5, by norm_num, hw, by norm_num⟩

/-- non-vacuity of the bound: the shell above meets its hypotheses -/
example : ∃ (E : Env binary64.T) (g : Grid binary64.T), BuiltGrid E scriP g ∧ ∃ c R w, g.getR_th_ph 7 0 0 = .ok c ∧
    binary64.val c.x0 = some R ∧ |R - 30| ≤ 4 * (2⁻¹ ^ 53 * 38) ∧ binary64.val (invR scriP.cl g.cl c.x0) = some w ∧ |w| ≤ 2⁻¹ ^ 53 * 5 := by
  obtain ⟨E, g, hc, hS⟩ := scri_setup
  have h5 : binary64.eps = 2⁻¹ ^ 53 := rfl
  have hnx : ((scriP.nx : ℕ) : ℝ) = 8 := by
    show ((8 : ℕ) : ℝ) = 8
    norm_num
  have hK : scriK E.useCheb scriP.nx 30 = 4 * 38 / 30 + 5 := by
    unfold scriK scriH
    rw [hnx, hc]
    norm_num
  obtain ⟨c, R, h1, h2, h3, h4⟩ := C115_outermost_inverse_radius_in_floating_point_partial (φ := binary64) hS (lo := 15 / 8) (L := 30) rfl rfl rfl
    (by norm_num) (by norm_num) (fun k hk => binary64_counts k (by have : scriP.nx = 8 := rfl; omega)) (by rw [h5, hnx]; norm_num)
    (by rw [h5, hK, min_eq_left (by norm_num)]; norm_num) (by
      have := range64 (x := 72) (by norm_num [abs_of_pos])
      rw [abs_of_pos (by norm_num)] at this
      exact le_trans (by rw [hnx]; norm_num) this) (it := 0) (ip := 0) (by decide) (by decide)
  obtain ⟨c', k1, k2⟩ := hS.last_fd hc (it := 0) (ip := 0) (by decide) (by decide)
  rw [hc] at h1
  rw [show scriP.nx - 1 = 7 from rfl] at k1
  have h1' : g.getR_th_ph 7 0 0 = .ok c := h1
  rw [h1'] at k1
  cases k1
  obtain ⟨v1, v2, ⟨t, v3, v3'⟩, v4, v5, v6⟩ := scri_values E.ndebug c.x0 scriP.cl k2 rfl
  rw [v1] at h2
  cases h2
  obtain ⟨w, h6, h7⟩ := h4 (by rw [v2, v3]; intro hh; cases hh; exact lt_irrefl _ v3') (fun z hz => by
    rw [v4] at hz
    cases hz
    exact ⟨by norm_num, range64 (by norm_num [abs_of_neg])⟩)
  refine ⟨E, g, hS, c, _, w, h1', v1, ?_, h6, ?_⟩
  · unfold scriH at h3
    rw [h5, hnx, hc] at h3
    exact h3.trans (by norm_num)
  · rw [h5, hK] at h7
    exact h7.trans (by norm_num)

end SFK
