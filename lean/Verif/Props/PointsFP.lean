import Verif.Props.Scri
import Mathlib.Analysis.SpecialFunctions.Trigonometric.Bounds
/-
C119: the radial points in floating point.
-/
namespace SFK
open Scalar CR

/-- The error of a radial point: `eps` times this number. -/
noncomputable def shellErr (useCheb : Bool) (n : ℕ) (L : ℝ) : ℝ := if useCheb then 62 * (1 + L) else 4 * (n + L)

section
variable {φ : Format}

theorem PointsFP.fd {lo L : ℝ} {a b : φ.T} {n : ℕ} {nd : Bool} (hn : 8 ≤ n) (hW : n < W) (hlo : φ.val a = some lo) (hup : φ.val b = some L) (h0 : 0 < lo)
    (hL : lo < L) (hc : φ.Counts n) (he : φ.eps * (n + L) ≤ 1 / 16) (hO : 2 * (L + 1) ≤ φ.Omega) {i : ℕ} (hi : i < n) :
    ∃ R, φ.val ((FD.mk' n a b nd).pt i) = some R ∧ |R - (lo + i * ((L - lo) / ((n : ℝ) - 1)))| ≤ 4 * (φ.eps * (n + L)) := by
  have e0 := φ.eps_nonneg
  have hnR : (8 : ℝ) ≤ n := by exact_mod_cast hn
  obtain ⟨m, hm⟩ : ∃ m : ℝ, m = (n : ℝ) - 1 := ⟨_, rfl⟩
  rw [← hm]
  have hm7 : (7 : ℝ) ≤ m := by linarith
  have hiR : (i : ℝ) ≤ m := by
    have : (i : ℝ) + 1 ≤ n := by exact_mod_cast hi
    linarith
  have hi0 : (0 : ℝ) ≤ i := by positivity
  have hci : φ.val (dbl i) = some (i : ℝ) := hc i hi.le
  have hcm : φ.val (dbl (n - 1)) = some m := by
    rw [hm]
    have := hc (n - 1) (by omega)
    rw [show (((n - 1 : ℕ) : ℕ) : ℝ) = (n : ℝ) - 1 by rw [Nat.cast_sub (by omega), Nat.cast_one]] at this
    exact this
  obtain ⟨e, hee⟩ : ∃ e, e = φ.eps := ⟨_, rfl⟩
  rw [← hee] at e0 he ⊢
  have heL : e * L ≤ 1 / 16 := by nlinarith
  have heS2 : e * (2 + L) ≤ e * (n + L) := mul_le_mul_of_nonneg_left (by linarith) e0
  -- the difference
  obtain ⟨u, hu, hu'⟩ := φ.faithful.sub b a L lo hup hlo (by rw [abs_of_pos (by linarith)]; linarith)
  rw [← hee, abs_of_pos (by linarith : 0 < L - lo)] at hu'
  have hu0 : |u - (L - lo)| ≤ e * (n + L) := hu'.trans (mul_le_mul_of_nonneg_left (by linarith) e0)
  have hu1 : |u - (L - lo)| ≤ 1 / 16 := hu0.trans he
  have hu2 : |u| ≤ L + 1 := by
    have := abs_le.mp hu1
    rw [abs_le]
    constructor <;> linarith
  -- the spacing
  have hum : |u / m| ≤ L + 1 := by
    rw [abs_div, abs_of_pos (by linarith : 0 < m), div_le_iff₀ (by linarith)]
    nlinarith
  obtain ⟨d, hd, hd'⟩ := φ.faithful.div _ _ u m hu hcm (by linarith) (hum.trans (by linarith))
  rw [← hee] at hd'
  obtain ⟨k, hk⟩ : ∃ k : ℝ, k = i / m := ⟨_, rfl⟩
  have hk0 : 0 ≤ k := by rw [hk]; positivity
  have hk1 : k ≤ 1 := by rw [hk, div_le_one (by linarith)]; exact hiR
  have hkm : k * m = i := by rw [hk]; field_simp
  have hX : (i : ℝ) * ((L - lo) / m) = k * (L - lo) := by rw [hk]; ring
  rw [hX]
  have hdm : |d * i - k * u| ≤ e * (n + L) := by
    have : d * i - k * u = (d - u / m) * i := by
      rw [← hkm]
      field_simp
    rw [this, abs_mul, abs_of_nonneg hi0]
    calc |d - u / m| * i ≤ e * (1 + |u / m|) * m := mul_le_mul hd' hiR hi0 (by positivity)
      _ = e * (m + |u|) := by
        rw [abs_div, abs_of_pos (by linarith : 0 < m)]
        field_simp
      _ ≤ _ := mul_le_mul_of_nonneg_left (by linarith) e0
  have hku : |k * u - k * (L - lo)| ≤ e * (n + L) := by
    rw [← mul_sub, abs_mul, abs_of_nonneg hk0]
    calc k * |u - (L - lo)| ≤ 1 * |u - (L - lo)| := mul_le_mul_of_nonneg_right hk1 (abs_nonneg _)
      _ ≤ _ := by rw [one_mul]; exact hu0
  have hkL : 0 ≤ k * (L - lo) ∧ k * (L - lo) ≤ L - lo := ⟨mul_nonneg hk0 (by linarith), by nlinarith⟩
  have hdm2 : |d * i| ≤ L + 1 := by
    have h1 := abs_le.mp (hdm.trans he)
    have h2 := abs_le.mp (hku.trans he)
    rw [abs_le]
    constructor <;> linarith [hkL.1, hkL.2]
  -- the distance
  obtain ⟨p, hp, hp'⟩ := φ.faithful.mul _ _ d i hd hci (hdm2.trans (by linarith))
  rw [← hee] at hp'
  have hp1 : |p - d * i| ≤ e * (n + L) := hp'.trans (le_trans (mul_le_mul_of_nonneg_left (by linarith) e0) heS2)
  have h3 : |p + lo - (lo + k * (L - lo))| ≤ 3 * (e * (n + L)) := by
    have h1 := abs_le.mp hp1
    have h2 := abs_le.mp hdm
    have h3 := abs_le.mp hku
    rw [abs_le]
    constructor <;> linarith
  have h4 : |p + lo| ≤ L + 1 := by
    have := abs_le.mp h3
    rw [abs_le]
    constructor <;> linarith [hkL.1, hkL.2]
  obtain ⟨R, hR, hR'⟩ := φ.faithful.add _ _ p lo hp hlo (h4.trans (by linarith))
  rw [← hee] at hR'
  refine ⟨R, ?_, ?_⟩
  · have hus : usub n 1 = n - 1 := usub_of_le hW (by omega)
    show φ.val ((b - a) / dbl (usub n 1) * dbl i + a) = _
    rw [hus]
    exact hR
  · have h5 : |R - (p + lo)| ≤ e * (n + L) := hR'.trans (le_trans (mul_le_mul_of_nonneg_left (by linarith) e0) heS2)
    have h6 := abs_le.mp h5
    have h7 := abs_le.mp h3
    rw [abs_le]
    constructor <;> linarith

/-- the angle of a Chebyshev point -/
theorem PointsFP.angle {n : ℕ} (hn : 2 ≤ n) (hc : φ.Counts n) (he : φ.eps * n ≤ 1 / 16) (hO : 6 * n + 8 ≤ φ.Omega) {i : ℕ} (hi : i < n) :
    ∃ c, φ.val (Scalar.cos (Scalar.pi * dbl i / (dbl n - 1) : φ.T)) = some c ∧ |c - Real.cos (Real.pi * i / ((n : ℝ) - 1))| ≤ 47 * φ.eps := by
  have e0 := φ.eps_nonneg
  have hnR : (2 : ℝ) ≤ n := by exact_mod_cast hn
  have hcn : φ.val (dbl n) = some (n : ℝ) := hc n (le_refl _)
  have hci : φ.val (dbl i) = some (i : ℝ) := hc i hi.le
  have hc1 : φ.val (1 : φ.T) = some 1 := by
    have := hc 1 (by omega)
    rw [show ((1 : ℕ) : ℝ) = 1 from Nat.cast_one] at this
    exact this
  obtain ⟨e, hee⟩ : ∃ e, e = φ.eps := ⟨_, rfl⟩
  rw [← hee] at e0 he ⊢
  have he32 : e ≤ 1 / 32 := by nlinarith
  obtain ⟨N, hN⟩ : ∃ N : ℝ, N = (n : ℝ) - 1 := ⟨_, rfl⟩
  rw [← hN]
  have hN1 : 1 ≤ N := by linarith
  have hi0 : (0 : ℝ) ≤ i := by positivity
  have hiN : (i : ℝ) ≤ N := by
    have : (i : ℝ) + 1 ≤ n := by exact_mod_cast hi
    linarith
  have hpi := Real.two_le_pi
  have hpi4 := Real.pi_le_four
  obtain ⟨p, hp, hp'⟩ := φ.faithful.pi (by rw [abs_of_pos Real.pi_pos]; linarith)
  rw [← hee, abs_of_pos Real.pi_pos] at hp'
  have hp1 : |p - Real.pi| ≤ 5 * e := hp'.trans (by nlinarith)
  have hp2 : 0 ≤ p ∧ p ≤ 5 := by
    have := abs_le.mp hp1
    constructor <;> linarith
  have hpi0 : 0 ≤ p * i := mul_nonneg hp2.1 hi0
  have hpi5 : p * i ≤ 5 * N := mul_le_mul hp2.2 hiN hi0 (by norm_num)
  obtain ⟨z, hz, hz'⟩ := φ.faithful.mul _ _ p i hp hci (by rw [abs_of_nonneg hpi0]; linarith)
  rw [← hee, abs_of_nonneg hpi0] at hz'
  have hz1 : |z - Real.pi * i| ≤ e * (11 * N) := by
    have h1 : |p * i - Real.pi * i| ≤ e * (5 * N) := by
      rw [← sub_mul, abs_mul, abs_of_nonneg hi0]
      calc |p - Real.pi| * i ≤ 5 * e * N := mul_le_mul hp1 hiN hi0 (by positivity)
        _ = _ := by ring
    have h2 : |z - p * i| ≤ e * (6 * N) := hz'.trans (mul_le_mul_of_nonneg_left (by linarith) e0)
    have h3 := abs_le.mp h1
    have h4 := abs_le.mp h2
    have h5 : e * (11 * N) = e * (5 * N) + e * (6 * N) := by ring
    rw [h5, abs_le]
    constructor <;> linarith
  obtain ⟨m, hm, hm'⟩ := φ.faithful.sub _ _ (n : ℝ) 1 hcn hc1 (by rw [abs_of_pos (by linarith)]; linarith)
  rw [← hN, ← hee, abs_of_pos (by linarith : (0 : ℝ) < N)] at hm'
  have hm1 : |m - N| ≤ e * (2 * N) := hm'.trans (mul_le_mul_of_nonneg_left (by linarith) e0)
  have hm2 : N / 2 ≤ m := by
    have := (abs_le.mp hm').1
    have h2 : e * (1 + N) = e * n := by rw [hN]; ring
    rw [h2] at this
    linarith
  have hm0 : 0 < m := by linarith
  obtain ⟨t, ht⟩ : ∃ t : ℝ, t = Real.pi * i / N := ⟨_, rfl⟩
  rw [← ht]
  have htN : t * N = Real.pi * i := by rw [ht]; field_simp
  have ht0 : 0 ≤ t := by rw [ht]; positivity
  have ht4 : t ≤ 4 := by
    rw [ht, div_le_iff₀ (by linarith)]
    exact mul_le_mul hpi4 hiN hi0 (by norm_num)
  have hq0 : |z / m - t| ≤ 38 * e := by
    have h1 : z / m - t = (z - Real.pi * i - t * (m - N)) / m := by
      field_simp
      rw [← htN]
      ring
    rw [h1, abs_div, abs_of_pos hm0, div_le_iff₀ hm0]
    have h2 : |t * (m - N)| ≤ 4 * (e * (2 * N)) := by
      rw [abs_mul, abs_of_nonneg ht0]
      exact mul_le_mul ht4 hm1 (abs_nonneg _) (by norm_num)
    have h3 : |z - Real.pi * i - t * (m - N)| ≤ e * (11 * N) + 4 * (e * (2 * N)) := (abs_sub _ _).trans (add_le_add hz1 h2)
    refine h3.trans ?_
    have h4 : e * (38 * (N / 2)) ≤ e * (38 * m) := mul_le_mul_of_nonneg_left (by linarith) e0
    calc e * (11 * N) + 4 * (e * (2 * N)) = e * (38 * (N / 2)) := by ring
      _ ≤ e * (38 * m) := h4
      _ = _ := by ring
  have hq6 : |z / m| ≤ 6 := by
    have := abs_le.mp hq0
    rw [abs_le]
    constructor <;> linarith
  obtain ⟨q, hq, hq'⟩ := φ.faithful.div _ _ z m hz hm hm0.ne' (hq6.trans (by linarith))
  rw [← hee] at hq'
  have hq1 : |q - t| ≤ 45 * e := by
    have h1 : |q - z / m| ≤ e * 7 := hq'.trans (mul_le_mul_of_nonneg_left (by linarith) e0)
    have h2 := abs_le.mp h1
    have h3 := abs_le.mp hq0
    rw [abs_le]
    constructor <;> linarith
  obtain ⟨c, hcv, hc'⟩ := φ.faithful.cos _ q hq ((Real.abs_cos_le_one q).trans (by linarith))
  rw [← hee] at hc'
  refine ⟨c, hcv, ?_⟩
  have h1 : |c - Real.cos q| ≤ e * 2 := hc'.trans (mul_le_mul_of_nonneg_left (by linarith [Real.abs_cos_le_one q]) e0)
  have h2 : |Real.cos q - Real.cos t| ≤ 45 * e := by
    have := Real.lipschitzWith_cos.dist_le_mul q t
    rw [Real.dist_eq, Real.dist_eq] at this
    simp only [NNReal.coe_one, one_mul] at this
    exact this.trans hq1
  have h3 := abs_le.mp h1
  have h4 := abs_le.mp h2
  rw [abs_le]
  constructor <;> linarith

theorem PointsFP.cheb {lo L : ℝ} {a b : φ.T} {n : ℕ} (hn : 2 ≤ n) (hlo : φ.val a = some lo) (hup : φ.val b = some L) (h0 : 0 < lo)
    (hL : lo < L) (hc : φ.Counts n) (he : φ.eps * (n + L) ≤ 1 / 16) (hO : 6 * n + 4 * (L + 2) ≤ φ.Omega) {i : ℕ} (hi : i < n) :
    ∃ R, φ.val ((b - a) / 2 * Scalar.cos (Scalar.pi * dbl i / (dbl n - 1)) + (b + a) / 2) = some R ∧
      |R - ((L - lo) / 2 * Real.cos (Real.pi * i / ((n : ℝ) - 1)) + (L + lo) / 2)| ≤ φ.eps * (62 * (1 + L)) := by
  have e0 := φ.eps_nonneg
  have hnR : (2 : ℝ) ≤ n := by exact_mod_cast hn
  have hLp : 0 < L := h0.trans hL
  obtain ⟨c, hcv, hc47⟩ := PointsFP.angle hn hc (by nlinarith) (by linarith) hi
  have hc2 : φ.val (2 : φ.T) = some 2 := by
    have := hc 2 hn
    rw [show ((2 : ℕ) : ℝ) = 2 from Nat.cast_ofNat] at this
    exact this
  obtain ⟨e, hee⟩ : ∃ e, e = φ.eps := ⟨_, rfl⟩
  rw [← hee] at e0 he hc47 ⊢
  obtain ⟨C, hC⟩ : ∃ C, C = Real.cos (Real.pi * i / ((n : ℝ) - 1)) := ⟨_, rfl⟩
  have hC1 : |C| ≤ 1 := by rw [hC]; exact Real.abs_cos_le_one _
  rw [← hC] at hc47 ⊢
  obtain ⟨σ, hσ⟩ : ∃ σ, σ = e * (1 + L) := ⟨_, rfl⟩
  have hs16 : σ ≤ 1 / 16 := by rw [hσ]; nlinarith
  have hσ0 : 0 ≤ σ := by rw [hσ]; positivity
  have he32 : e ≤ 1 / 32 := by nlinarith
  have up : ∀ k x : ℝ, x ≤ k * (1 + L) → e * x ≤ k * σ := by
    intro k x hx
    calc e * x ≤ e * (k * (1 + L)) := mul_le_mul_of_nonneg_left hx e0
      _ = k * σ := by rw [hσ]; ring
  -- half the length
  obtain ⟨u, hu, hu'⟩ := φ.faithful.sub b a L lo hup hlo (by rw [abs_of_pos (by linarith)]; linarith)
  rw [← hee, abs_of_pos (by linarith : 0 < L - lo)] at hu'
  have hu1 : |u - (L - lo)| ≤ 1 * σ := hu'.trans (up _ _ (by linarith))
  have hu2 : |u| ≤ L + 1 := by
    have := abs_le.mp hu1
    rw [abs_le]
    constructor <;> linarith
  have hu3 : |u / 2| ≤ (L + 1) / 2 := by
    rw [abs_div, abs_of_pos (by norm_num : (0:ℝ) < 2)]
    linarith
  obtain ⟨j, hj, hj'⟩ := φ.faithful.div _ _ u 2 hu hc2 (by norm_num) (hu3.trans (by linarith))
  rw [← hee] at hj'
  have hj1 : |j - u / 2| ≤ 2 * σ := hj'.trans (up _ _ (by linarith))
  have hj2 : |j - (L - lo) / 2| ≤ 5 / 2 * σ := by
    have h1 := abs_le.mp hj1
    have h2 := abs_le.mp hu1
    rw [abs_le]
    constructor <;> linarith
  have hj3 : |j| ≤ L / 2 + 1 := by
    have := abs_le.mp hj2
    rw [abs_le]
    constructor <;> linarith
  -- the product
  have hc3 : |c| ≤ 3 := by
    have h1 := abs_le.mp hc47
    have h2 := abs_le.mp hC1
    rw [abs_le]
    constructor <;> linarith
  have hjc : |j * c - (L - lo) / 2 * C| ≤ 99 / 2 * σ := by
    have h1 : j * c - (L - lo) / 2 * C = j * (c - C) + (j - (L - lo) / 2) * C := by ring
    rw [h1]
    have h2 : |j * (c - C)| ≤ 47 * σ := by
      rw [abs_mul]
      calc |j| * |c - C| ≤ (L / 2 + 1) * (47 * e) := mul_le_mul hj3 hc47 (abs_nonneg _) (by linarith)
        _ = e * (47 * (L / 2 + 1)) := by ring
        _ ≤ 47 * σ := up _ _ (by linarith)
    have h3 : |(j - (L - lo) / 2) * C| ≤ 5 / 2 * σ := by
      rw [abs_mul]
      calc |j - (L - lo) / 2| * |C| ≤ 5 / 2 * σ * 1 := mul_le_mul hj2 hC1 (abs_nonneg _) (by positivity)
        _ = _ := by ring
    refine (abs_add_le _ _).trans ?_
    linarith
  have hjc2 : |j * c| ≤ 2 * L + 3 := by
    rw [abs_mul]
    calc |j| * |c| ≤ (L / 2 + 1) * 3 := mul_le_mul hj3 hc3 (abs_nonneg _) (by linarith)
      _ ≤ _ := by linarith
  obtain ⟨v, hv, hv'⟩ := φ.faithful.mul _ _ j c hj hcv (hjc2.trans (by linarith))
  rw [← hee] at hv'
  have hv1 : |v - j * c| ≤ 4 * σ := hv'.trans (up _ _ (by linarith))
  -- the middle
  obtain ⟨s, hs, hs'⟩ := φ.faithful.add b a L lo hup hlo (by rw [abs_of_pos (by linarith)]; linarith)
  rw [← hee, abs_of_pos (by linarith : 0 < L + lo)] at hs'
  have hs1 : |s - (L + lo)| ≤ 2 * σ := hs'.trans (up _ _ (by linarith))
  have hs2 : |s / 2| ≤ L + 1 := by
    rw [abs_div, abs_of_pos (by norm_num : (0:ℝ) < 2), div_le_iff₀ (by norm_num), abs_le]
    have := abs_le.mp hs1
    constructor <;> linarith
  obtain ⟨h, hh, hh'⟩ := φ.faithful.div _ _ s 2 hs hc2 (by norm_num) (hs2.trans (by linarith))
  rw [← hee] at hh'
  have hh1 : |h - s / 2| ≤ 2 * σ := hh'.trans (up _ _ (by linarith))
  -- the sum
  obtain ⟨X, hX⟩ : ∃ X, X = (L - lo) / 2 * C + (L + lo) / 2 := ⟨_, rfl⟩
  rw [← hX]
  have hXL : |X| ≤ L := by
    have hb := abs_le.mp hC1
    have h1 : (L - lo) / 2 * C ≤ (L - lo) / 2 * 1 := mul_le_mul_of_nonneg_left hb.2 (by linarith)
    have h2 : (L - lo) / 2 * (-1) ≤ (L - lo) / 2 * C := mul_le_mul_of_nonneg_left hb.1 (by linarith)
    rw [hX, abs_le]
    constructor <;> linarith
  have h3 : |v + h - X| ≤ 113 / 2 * σ := by
    have h1 := abs_le.mp hv1
    have h2 := abs_le.mp hjc
    have h4 := abs_le.mp hs1
    have h5 := abs_le.mp hh1
    rw [hX, abs_le]
    constructor <;> linarith
  have h4 : |v + h| ≤ L + 4 := by
    have h1 := abs_le.mp h3
    have h2 := abs_le.mp hXL
    rw [abs_le]
    constructor <;> linarith
  obtain ⟨R, hR, hR'⟩ := φ.faithful.add _ _ v h hv hh (h4.trans (by linarith))
  rw [← hee] at hR'
  refine ⟨R, hR, ?_⟩
  have h5 : |R - (v + h)| ≤ 5 * σ := hR'.trans (up _ _ (by linarith))
  have h6 := abs_le.mp h5
  have h7 := abs_le.mp h3
  rw [show e * (62 * (1 + L)) = 62 * σ by rw [hσ]; ring, abs_le]
  constructor <;> linarith

/-- the stored radii -/
theorem BuiltGrid.shell {α : Type} [Scalar α] {E : Env α} {P : ParamRec α} {g : Grid α} (hS : BuiltGrid E P g)
    {ix it ip : ℕ} (hx : ix < P.nx) (ht : it < P.nlat) (hp : ip < P.nphi) :
    ∃ c, g.getR_th_ph ix it ip = .ok c ∧ c.x0 = if E.useCheb then
      (P.Rmax - P.Rmin) / 2 * Scalar.cos (Scalar.pi * dbl ix / (dbl P.nx - 1)) + (P.Rmax + P.Rmin) / 2
      else (FD.mk' P.nx P.Rmin P.Rmax E.ndebug).pt ix := by
  refine ⟨_, hS.wf.getR_eq (hS.inR hx ht hp), ?_⟩
  dsimp only
  rw [hS.radial]
  unfold Grid.radialOf
  split_ifs
  · exact gv_tab hx
  · rfl

/-- The least distance of neighbouring points: the spacing of the uniform points, `(L-lo)/(n-1)²` for the Chebyshev points. -/
noncomputable def shellGap (useCheb : Bool) (n : ℕ) (lo L : ℝ) : ℝ := if useCheb then (L - lo) / ((n : ℝ) - 1) ^ 2 else (L - lo) / ((n : ℝ) - 1)

theorem sin_ge_of_mid {δ x : ℝ} (h0 : 0 ≤ δ) (h1 : δ ≤ x) (h2 : x ≤ Real.pi - δ) : Real.sin δ ≤ Real.sin x := by
  have hpi := Real.pi_pos
  rcases le_total x (Real.pi / 2) with h | h
  · exact Real.sin_le_sin_of_le_of_le_pi_div_two (by linarith) h h1
  · rw [← Real.sin_pi_sub x]
    exact Real.sin_le_sin_of_le_of_le_pi_div_two (by linarith) (by linarith) (by linarith)

/-- the distance of exact points -/
theorem shellGap_le {lo L : ℝ} (hL : lo < L) {n ix iy : ℕ} (hn : 2 ≤ n) (hxy : ix < iy) (hy : iy < n) :
    radPt false n lo L ix + shellGap false n lo L ≤ radPt false n lo L iy ∧ radPt true n lo L iy + shellGap true n lo L ≤ radPt true n lo L ix := by
  have hnR : (2 : ℝ) ≤ n := by exact_mod_cast hn
  have hxyR : (ix : ℝ) + 1 ≤ iy := by exact_mod_cast hxy
  have hyR : (iy : ℝ) + 1 ≤ n := by exact_mod_cast hy
  have hx0 : (0 : ℝ) ≤ ix := by positivity
  obtain ⟨N, hN⟩ : ∃ N : ℝ, N = (n : ℝ) - 1 := ⟨_, rfl⟩
  have hN1 : 1 ≤ N := by linarith
  constructor
  · show lo + ix * ((L - lo) / ((n : ℝ) - 1)) + (L - lo) / ((n : ℝ) - 1) ≤ lo + iy * ((L - lo) / ((n : ℝ) - 1))
    rw [← hN]
    have : 0 < (L - lo) / N := div_pos (by linarith) (by linarith)
    nlinarith
  · show (L - lo) / 2 * Real.cos (Real.pi * iy / ((n : ℝ) - 1)) + (L + lo) / 2 + (L - lo) / ((n : ℝ) - 1) ^ 2 ≤
      (L - lo) / 2 * Real.cos (Real.pi * ix / ((n : ℝ) - 1)) + (L + lo) / 2
    rw [← hN]
    have hpi := Real.pi_pos
    obtain ⟨δ, hδ⟩ : ∃ δ : ℝ, δ = Real.pi / (2 * N) := ⟨_, rfl⟩
    have hδN : δ * (2 * N) = Real.pi := by rw [hδ]; field_simp
    have hδ0 : 0 < δ := by rw [hδ]; positivity
    have hδ2 : δ ≤ Real.pi / 2 := by nlinarith
    have ex : Real.pi * ix / N = 2 * ix * δ := by rw [hδ]; field_simp
    have ey : Real.pi * iy / N = 2 * iy * δ := by rw [hδ]; field_simp
    rw [ex, ey]
    have hmono : Real.cos (2 * iy * δ) ≤ Real.cos (2 * (ix + 1) * δ) := by
      apply Real.cos_le_cos_of_nonneg_of_le_pi
      · positivity
      · nlinarith
      · nlinarith
    have hdiff : Real.cos (2 * ix * δ) - Real.cos (2 * (ix + 1) * δ) = 2 * Real.sin ((2 * ix + 1) * δ) * Real.sin δ := by
      rw [Real.cos_sub_cos]
      rw [show (2 * ix * δ + 2 * (ix + 1) * δ) / 2 = (2 * ix + 1) * δ by ring, show (2 * ix * δ - 2 * (ix + 1) * δ) / 2 = -δ by ring, Real.sin_neg]
      ring
    have hs1 : Real.sin δ ≤ Real.sin ((2 * ix + 1) * δ) := sin_ge_of_mid hδ0.le (by nlinarith) (by nlinarith)
    have hs2 : 1 / N ≤ Real.sin δ := by
      have := Real.mul_le_sin hδ0.le hδ2
      refine le_trans (le_of_eq ?_) this
      rw [hδ]
      field_simp
    have hN0 : 0 < 1 / N := by positivity
    have hprod : (1 / N) * (1 / N) ≤ Real.sin ((2 * ix + 1) * δ) * Real.sin δ := mul_le_mul (hs2.trans hs1) hs2 hN0.le (by linarith)
    have hgap : (L - lo) / N ^ 2 = (L - lo) * ((1 / N) * (1 / N)) := by field_simp
    rw [hgap]
    have h1 : (L - lo) * ((1 / N) * (1 / N)) ≤ (L - lo) * (Real.sin ((2 * ix + 1) * δ) * Real.sin δ) := mul_le_mul_of_nonneg_left hprod (by linarith)
    have h2 : (L - lo) / 2 * Real.cos (2 * iy * δ) ≤ (L - lo) / 2 * Real.cos (2 * (ix + 1) * δ) := mul_le_mul_of_nonneg_left hmono (by linarith)
    have h3 : (L - lo) / 2 * Real.cos (2 * ix * δ) - (L - lo) / 2 * Real.cos (2 * (ix + 1) * δ) =
        (L - lo) * (Real.sin ((2 * ix + 1) * δ) * Real.sin δ) := by
      rw [← mul_sub, hdiff]
      ring
    linarith

/-- C119: In every floating-point format, with either radial method, the radius stored for shell `ix` is the `ix`-th radial point of the interval up to
`eps shellErr`; if twice that error is less than the least distance of two points, the stored radii are in strict order (increasing for finite differences,
decreasing for Chebyshev points), so that no two shells coincide. -/
theorem C119_radial_points_in_floating_point {E : Env φ.T} {P : ParamRec φ.T} {g : Grid φ.T} (hS : BuiltGrid E P g)
    {lo L : ℝ} (hlo : φ.val P.Rmin = some lo) (hup : φ.val P.Rmax = some L) (h0 : 0 < lo)
    (hL : lo < L) (hct : φ.Counts P.nx) (he : φ.eps * (P.nx + L) ≤ 1 / 16) (hO : 6 * P.nx + 4 * (L + 2) ≤ φ.Omega) :
    ∃ R : ℕ → ℝ, (∀ ix it ip, ix < P.nx → it < P.nlat → ip < P.nphi → ∃ c, g.getR_th_ph ix it ip = .ok c ∧ φ.val c.x0 = some (R ix) ∧
        |R ix - radPt E.useCheb P.nx lo L ix| ≤ φ.eps * shellErr E.useCheb P.nx L) ∧
      (2 * (φ.eps * shellErr E.useCheb P.nx L) < shellGap E.useCheb P.nx lo L →
        ∀ ix iy, ix < iy → iy < P.nx → if E.useCheb then R iy < R ix else R ix < R iy) := by
  have hn : 2 ≤ P.nx := by
    have := hS.sizes.nx_min
    split_ifs at this <;> omega
  have hnR : (2 : ℝ) ≤ P.nx := by exact_mod_cast hn
  have hW : P.nx < W := by
    have h1 := hS.sizes.fits
    have h2 := hS.sizes.nlat_pos
    have h3 := hS.sizes.nphi_pos
    calc P.nx = P.nx * 1 * 1 := by ring
      _ ≤ P.nx * P.nlat * P.nphi := Nat.mul_le_mul (Nat.mul_le_mul (le_refl _) h2) h3
      _ < W := h1
  have key : ∀ ix, ix < P.nx → ∃ R, φ.val (if E.useCheb then
      (P.Rmax - P.Rmin) / 2 * Scalar.cos (Scalar.pi * dbl ix / (dbl P.nx - 1)) + (P.Rmax + P.Rmin) / 2
      else (FD.mk' P.nx P.Rmin P.Rmax E.ndebug).pt ix) = some R ∧ |R - radPt E.useCheb P.nx lo L ix| ≤ φ.eps * shellErr E.useCheb P.nx L := by
    intro ix hx
    cases hc : E.useCheb with
    | true => exact PointsFP.cheb hn hlo hup h0 hL hct he hO hx
    | false =>
      have hn8 : 8 ≤ P.nx := by
        have := hS.sizes.nx_min
        rw [hc] at this
        exact this
      obtain ⟨R, h1, h2⟩ := PointsFP.fd (nd := E.ndebug) hn8 hW hlo hup h0 hL hct he (by linarith) hx
      refine ⟨R, h1, h2.trans (le_of_eq ?_)⟩
      show _ = φ.eps * (4 * (P.nx + L))
      ring
  classical
  refine ⟨fun ix => if h : ix < P.nx then (key ix h).choose else 0, fun ix it ip hx ht hp => ?_, fun hg ix iy hxy hy => ?_⟩
  · obtain ⟨c, h1, h2⟩ := hS.shell hx ht hp
    obtain ⟨k1, k2⟩ := (key ix hx).choose_spec
    refine ⟨c, h1, ?_, ?_⟩
    · rw [h2]
      dsimp only
      rw [dif_pos hx]
      exact k1
    · dsimp only
      rw [dif_pos hx]
      exact k2
  · have hx : ix < P.nx := hxy.trans hy
    dsimp only
    rw [dif_pos hx, dif_pos hy]
    have kx := abs_le.mp (key ix hx).choose_spec.2
    have ky := abs_le.mp (key iy hy).choose_spec.2
    obtain ⟨g1, g2⟩ := shellGap_le hL hn hxy hy
    generalize (key ix hx).choose = Rx at kx ⊢
    generalize (key iy hy).choose = Ry at ky ⊢
    clear key
    cases hc : E.useCheb with
    | true =>
      simp only [hc, if_true] at kx ky hg ⊢
      linarith
    | false =>
      simp only [hc, Bool.false_eq_true, if_false] at kx ky hg ⊢
      linarith

end
/-- Non-vacuity: the grid of the witness of C115 and its Chebyshev counterpart meet the hypotheses, and their points are farther apart than twice the error. -/
example (useCheb : Bool) : ∃ (E : Env binary64.T) (g : Grid binary64.T), E.useCheb = useCheb ∧ BuiltGrid E scriP g ∧ binary64.val scriP.Rmin = some (15 / 8) ∧
    binary64.val scriP.Rmax = some 30 ∧ binary64.Counts scriP.nx ∧ binary64.eps * (scriP.nx + 30) ≤ 1 / 16 ∧ 6 * scriP.nx + 4 * (30 + 2) ≤ binary64.Omega ∧
    2 * (binary64.eps * shellErr useCheb scriP.nx 30) < shellGap useCheb scriP.nx (15 / 8) 30 := by
  obtain ⟨E, x, A, h1, h2, h3, h4⟩ := exists_env true false useCheb (nx := 8) (nl := 7) (nm := 7) (nlat := 8) (nphi := 16)
    (by omega) (by omega) (by omega)
  have hz : Sizes E.useCheb 8 7 8 16 := ⟨by rw [h3]; cases useCheb <;> decide, by omega, by omega, by decide, by decide, by omega⟩
  obtain ⟨g, hg, _⟩ := @Grid.ctor_wf binary64.T binary64.inst E 8 7 7 8 16 h4.sized hz scriP.cl scriP.Rmin scriP.Rmax
  have h5 : binary64.eps = 2⁻¹ ^ 53 := rfl
  have hnx : ((scriP.nx : ℕ) : ℝ) = 8 := by
    show ((8 : ℕ) : ℝ) = 8
    norm_num
  refine ⟨E, g, h3, ⟨h4.sized, hz, hg⟩, rfl, rfl, fun k hk => binary64_counts k (by have : scriP.nx = 8 := rfl; omega), ?_, ?_, ?_⟩
  · rw [h5, hnx]
    norm_num
  · have := range64 (x := 176) (by norm_num [abs_of_pos])
    rw [abs_of_pos (by norm_num)] at this
    exact le_trans (by rw [hnx]; norm_num) this
  · unfold shellErr shellGap
    rw [h5, hnx]
    cases useCheb
    · simp only [Bool.false_eq_true, if_false]
      norm_num
    · simp only [if_true]
      norm_num

end SFK
