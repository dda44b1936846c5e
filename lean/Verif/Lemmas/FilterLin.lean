import Verif.Lemmas.Relax
import Verif.Props.Refine
import Verif.Spec.Relax
import Mathlib.Analysis.Normed.Module.FiniteDimension
/-
The angular filter as a linear map on finite states: decomposition into harmonics, powers and their limit.
-/
namespace SFK
open Scalar CR Filter Topology

/-! ### abstract -/

section abs
variable {V : Type*} [NormedAddCommGroup V] [NormedSpace ℝ V] {ι : Type*} {S : Finset ι} {lam : ι → ℝ} {p : ι → V →L[ℝ] V} {D : V →L[ℝ] V}

theorem diag_pow (hD : D = ∑ s ∈ S, lam s • p s) (hp : ∀ s ∈ S, D * p s = lam s • p s) (k : ℕ) : D ^ (k + 1) = ∑ s ∈ S, lam s ^ (k + 1) • p s := by
  induction k with
  | zero => simpa using hD
  | succ k ih =>
    rw [pow_succ', ih, Finset.mul_sum]
    refine Finset.sum_congr rfl fun s hs => ?_
    rw [mul_smul_comm, hp s hs, smul_smul]
    congr 1

/-- the powers of a diagonal map with factors in `(0,1]` converge geometrically -/
theorem diag_limit [DecidablePred fun s => lam s = 1] (hD : D = ∑ s ∈ S, lam s • p s) (hp : ∀ s ∈ S, D * p s = lam s • p s)
    (h0 : ∀ s ∈ S, 0 < lam s) {r : ℝ} (r0 : 0 < r) (hr : ∀ s ∈ S, lam s ≠ 1 → lam s ≤ r) :
    ∃ M : ℝ, ∀ k, ‖D ^ k - ∑ s ∈ S with lam s = 1, p s‖ ≤ M * r ^ k := by
  obtain ⟨Q, hQ⟩ : ∃ Q, Q = ∑ s ∈ S with lam s = 1, p s := ⟨_, rfl⟩
  rw [← hQ]
  refine ⟨‖(1 : V →L[ℝ] V) - Q‖ + ∑ s ∈ S, ‖p s‖, fun k => ?_⟩
  have n0 : 0 ≤ ∑ s ∈ S, ‖p s‖ := Finset.sum_nonneg fun _ _ => norm_nonneg _
  cases k with
  | zero => simp only [pow_zero, mul_one]; linarith
  | succ k =>
    have e : D ^ (k + 1) - Q = ∑ s ∈ S, (if lam s = 1 then (0 : V →L[ℝ] V) else lam s ^ (k + 1) • p s) := by
      rw [diag_pow hD hp, hQ, Finset.sum_filter, ← Finset.sum_sub_distrib]
      refine Finset.sum_congr rfl fun s _ => ?_
      split_ifs with hl
      · rw [hl, one_pow, one_smul, sub_self]
      · rw [sub_zero]
    rw [e]
    refine (norm_sum_le _ _).trans ?_
    have : ∀ s ∈ S, ‖(if lam s = 1 then (0 : V →L[ℝ] V) else lam s ^ (k + 1) • p s)‖ ≤ ‖p s‖ * r ^ (k + 1) := by
      intro s hs
      split_ifs with hl
      · rw [norm_zero]; positivity
      · rw [norm_smul, Real.norm_eq_abs, abs_of_nonneg (pow_nonneg (h0 s hs).le _), mul_comm]
        exact mul_le_mul_of_nonneg_left (pow_le_pow_left₀ (h0 s hs).le (hr s hs hl) _) (norm_nonneg _)
    refine (Finset.sum_le_sum this).trans ?_
    rw [← Finset.sum_mul, add_mul]
    have : 0 ≤ ‖(1 : V →L[ℝ] V) - Q‖ * r ^ (k + 1) := by positivity
    linarith

end abs

/-- a linear operation on grid functions as a continuous linear map -/
theorem LinF.clm {n : ℕ} {D : (ℕ → ℝ) → ℕ → ℝ} (hD : LinF n D) : ∃ T : (Fin n → ℝ) →L[ℝ] (Fin n → ℝ), ∀ y i, T y i = D (extF y) i := by
  have hadd : ∀ y z : Fin n → ℝ, extF (y + z) = fun j => 1 * extF y j + 1 * extF z j := fun y z => by
    funext j; unfold extF; split_ifs <;> simp
  have hsm : ∀ (a : ℝ) (y : Fin n → ℝ), extF (a • y) = fun j => a * extF y j + 0 * extF y j := fun a y => by
    funext j; unfold extF; split_ifs <;> simp
  let T : (Fin n → ℝ) →ₗ[ℝ] (Fin n → ℝ) :=
    { toFun := fun y i => D (extF y) i
      map_add' := fun y z => by funext i; rw [hadd, hD 1 1 _ _ i i.2, Pi.add_apply]; ring
      map_smul' := fun a y => by funext i; rw [hsm, hD a 0 _ _ i i.2]; simp }
  exact ⟨T.toContinuousLinearMap, fun y i => rfl⟩

/-! ### single harmonics -/

/-- the `(l,m)` part of coefficients -/
noncomputable def oneC (s : ℕ × ℕ) (c : ℕ → ℕ → ℂ) (l m : ℕ) : ℂ := if l = s.1 ∧ m = s.2 then c l m else 0

/-- the harmonics of a truncation -/
def modes (L M : ℕ) : Finset (ℕ × ℕ) := Finset.range (L + 1) ×ˢ Finset.range (M + 1)

theorem fieldR_sum {ι : Type*} (S : Finset ι) (L M : ℕ) (a : ι → ℝ) (c : ι → ℕ → ℕ → ℂ) (θ φ : ℝ) :
    fieldR L M (fun l m => ∑ s ∈ S, (a s : ℂ) * c s l m) θ φ = ∑ s ∈ S, a s * fieldR L M (c s) θ φ := by
  classical
  induction S using Finset.induction_on with
  | empty =>
    simp only [Finset.sum_empty]
    unfold fieldR
    simp
  | insert b S hb ih =>
    rw [Finset.sum_insert hb, ← ih]
    have := fieldR_comb L M (a b) 1 (c b) (fun l m => ∑ s ∈ S, (a s : ℂ) * c s l m) θ φ
    rw [one_mul] at this
    rw [← this]
    congr 1
    funext l m
    rw [Finset.sum_insert hb, Complex.ofReal_one, one_mul]

theorem fieldR_modes (L M : ℕ) (lam : ℕ → ℕ → ℝ) (c : ℕ → ℕ → ℂ) (θ φ : ℝ) :
    fieldR L M (fun l m => (lam l m : ℂ) * c l m) θ φ = ∑ s ∈ modes L M, lam s.1 s.2 * fieldR L M (oneC s c) θ φ := by
  rw [← fieldR_sum]
  apply fieldR_congr
  intro l m hml hl hm
  rw [Finset.sum_eq_single (l, m)]
  · simp [oneC]
  · intro s _ hs
    rw [oneC, if_neg, mul_zero]
    rintro ⟨rfl, rfl⟩
    exact hs rfl
  · intro hn
    exact absurd (Finset.mem_product.mpr ⟨Finset.mem_range.mpr (by omega), Finset.mem_range.mpr (by omega)⟩) hn

theorem oneC_comb (s : ℕ × ℕ) (a b : ℝ) (c d : ℕ → ℕ → ℂ) : oneC s (fun l m => a * c l m + b * d l m) = fun l m => a * oneC s c l m + b * oneC s d l m := by
  funext l m
  unfold oneC
  split_ifs <;> simp

/-! ### the filter -/

variable {E : Env CR} {P : ParamRec CR} {g : Grid CR} {q : Phys} {x : ℕ → ℝ} {A : ℕ → ℕ → ℕ → ℝ} {n : ℕ}

/-- coefficients of the grid function `u` on the sphere of index `ix` -/
noncomputable def shC (g : Grid CR) (A : ℕ → ℕ → ℕ → ℝ) (u : ℕ → ℝ) (ix : ℕ) : ℕ → ℕ → ℂ :=
  anaN A g.d.nlat g.d.nphi fun it ip => u (g.d.pos3 ix it ip)

/-- its `(l,m)` part -/
noncomputable def modeF (P : ParamRec CR) (g : Grid CR) (x : ℕ → ℝ) (A : ℕ → ℕ → ℕ → ℝ) (s : ℕ × ℕ) (u : ℕ → ℝ) (i : ℕ) : ℝ :=
  fieldR P.nl P.nm (oneC s (shC g A u (g.d.dX i))) (Real.arccos (x (g.d.dT i))) (phiN P.nphi (g.d.dP i))

theorem modeF_lin (s : ℕ × ℕ) (n : ℕ) : LinF n (modeF P g x A s) := by
  intro a b u w i _
  unfold modeF shC
  rw [← fieldR_comb, ← oneC_comb]
  congr 2
  funext l m
  exact anaN_comb a b _ _ l m

theorem filtM_filtD {L M l m : ℕ} (c : ℂ) : (if l < L ∧ m < M then filtM L l m * c else c) = (filtD L M l m : ℂ) * c := by
  unfold filtD filtM
  split_ifs <;> simp

section
variable (h : Exact E P g q x A)
include h

/-- the filter multiplies each harmonic by its factor -/
theorem filt_acts : ActsF g.d.total g.filtP fun u i => ∑ s ∈ modes P.nl P.nm, filtD P.nl P.nm s.1 s.2 * modeF P g x A s u i := by
  have hw := h.setup.wf
  have hm := h.math
  have hT := fun v u hv => filtP_is2 (v := v) (u := u) hw.sph hm hv
  have hlm : g.sphere.lmax = P.nl := by rw [hw.lmax, h.setup.dims]
  have hmm : g.sphere.mmax = P.nm := by rw [hw.mmax, h.setup.dims]
  rw [hw.nlat, hw.nphi] at hT
  intro v u hv
  have := lift_shells hw.ok _ hT v u hv
  refine this.congr fun i hi => ?_
  unfold mulN modeF
  beta_reduce
  rw [← fieldR_modes (lam := filtD P.nl P.nm), hlm, hmm, hw.nlat, hw.nphi, h.nphi]
  congr 1
  funext l m
  rw [filtM_filtD, shC, h.nphi]

/-- a single harmonic, on each sphere -/
theorem mode_shell (hn : g.d.total = n) {T : (Fin n → ℝ) →L[ℝ] (Fin n → ℝ)} {s : ℕ × ℕ} (hT : ∀ y i, T y i = modeF P g x A s (extF y) i)
    (y : Fin n → ℝ) {ix : ℕ} (hx : ix < P.nx) : OnShell P g x ix (arr (T y)) (oneC s (shC g A (extF y) ix)) := by
  subst hn
  have hw := h.setup.wf
  refine ⟨fun l _ => ?_, fun it ip ht hp => ?_⟩
  · unfold oneC shC
    split_ifs
    · exact anaN_im_zero _ _
    · rfl
  · have hin : g.d.InR ix it ip := ⟨by rw [h.nx]; exact hx, by rw [h.nlat]; exact ht, by rw [h.nphi]; exact hp⟩
    rw [(arr_isF (T y)).at3 hw.ok hin, fin_inj]
    unfold extF
    rw [dif_pos (g.d.pos3_lt hin), hT]
    unfold modeF
    dsimp only
    rw [g.d.dX_pos3 hin, g.d.dT_pos3 hin, g.d.dP_pos3 hin]
    rfl

theorem modes_clm (n : ℕ) : ∃ p : ℕ × ℕ → (Fin n → ℝ) →L[ℝ] (Fin n → ℝ), ∀ s y i, p s y i = modeF P g x A s (extF y) i := by
  choose p hp using fun s => (modeF_lin (P := P) (g := g) (x := x) (A := A) s n).clm
  exact ⟨p, hp⟩

/-- the filter as a linear map on one field -/
theorem filt_field (hn : g.d.total = n) {p : ℕ × ℕ → (Fin n → ℝ) →L[ℝ] (Fin n → ℝ)} (hp : ∀ s y i, p s y i = modeF P g x A s (extF y) i) (y : Fin n → ℝ) :
    g.filtP (arr y) = arr (∑ s ∈ modes P.nl P.nm, filtD P.nl P.nm s.1 s.2 • p s y) := by
  subst hn
  rw [(filt_acts h _ _ (arr_isF y)).arr]
  congr 1
  funext i
  rw [Finset.sum_apply]
  exact Finset.sum_congr rfl fun s _ => by rw [Pi.smul_apply, hp, smul_eq_mul]

theorem arr_at3 (hn : g.d.total = n) (y : Fin n → ℝ) (i : Fin n) :
    g.d.at3 (arr y) (g.d.dX i) (g.d.dT i) (g.d.dP i) = fin (y i) := by
  subst hn
  have hw := h.setup.wf
  obtain ⟨k1, k2⟩ := g.d.dec3 i.2
  rw [(arr_isF y).at3 hw.ok k1, k2, extF_val]

/-- filtering a single harmonic -/
theorem filt_mode (hn : g.d.total = n) {p : ℕ × ℕ → (Fin n → ℝ) →L[ℝ] (Fin n → ℝ)} (hp : ∀ s y i, p s y i = modeF P g x A s (extF y) i) (t : ℕ × ℕ)
    (y : Fin n → ℝ) : g.filtP (arr (p t y)) = arr (filtD P.nl P.nm t.1 t.2 • p t y) := by
  have hl := filt_field h hn hp (p t y)
  rw [hl]
  congr 1
  funext i
  have hi : (i : ℕ) < g.d.total := by rw [hn]; exact i.2
  obtain ⟨k1, k2⟩ := g.d.dec3 hi
  have hx : g.d.dX i < P.nx := by rw [← h.nx]; exact k1.1
  have h1 := (h.filt_shell hx (mode_shell h hn (hp t) y hx)).2 (g.d.dT i) (g.d.dP i) (by rw [← h.nlat]; exact k1.2.1) (by rw [← h.nphi]; exact k1.2.2)
  have h0 := (mode_shell h hn (hp t) y hx).2 (g.d.dT i) (g.d.dP i) (by rw [← h.nlat]; exact k1.2.1) (by rw [← h.nphi]; exact k1.2.2)
  rw [hl, arr_at3 h hn, fin_inj] at h1
  rw [arr_at3 h hn, fin_inj] at h0
  rw [h1, Pi.smul_apply, h0, smul_eq_mul]
  have e : (fun l m => (filtD P.nl P.nm l m : ℂ) * oneC t (shC g A (extF y) (g.d.dX i)) l m) =
      fun l m => (filtD P.nl P.nm t.1 t.2 : ℂ) * oneC t (shC g A (extF y) (g.d.dX i)) l m := by
    funext l m
    unfold oneC
    split_ifs with hh
    · rw [hh.1, hh.2]
    · simp
  rw [e]
  have := fieldR_comb P.nl P.nm (filtD P.nl P.nm t.1 t.2) 0 (oneC t (shC g A (extF y) (g.d.dX i))) (fun _ _ => 0) (Real.arccos (x (g.d.dT i))) (phiN P.nphi (g.d.dP i))
  rw [zero_mul, add_zero] at this
  rw [← this]
  congr 1
  funext l m
  simp

end

theorem filtD_pos (nl nm l m : ℕ) : 0 < filtD nl nm l m := by unfold filtD; split_ifs <;> positivity

/-- the weakest damping of a harmonic that is damped at all -/
theorem filtD_le {nl nm l m : ℕ} (hnl : 1 ≤ nl) (hne : filtD nl nm l m ≠ 1) (hml : m ≤ l) : filtD nl nm l m ≤ Real.exp (-40 / (nl : ℝ) ^ 16) := by
  unfold filtD at hne ⊢
  split_ifs at hne ⊢ with hh
  · have hl : 1 ≤ l := by
      by_contra hc
      have h1 : l = 0 := by omega
      have h2 : m = 0 := by omega
      rw [h1, h2] at hne
      simp at hne
    have n0 : (0:ℝ) < nl := by exact_mod_cast hnl
    have l1 : (1:ℝ) ≤ l := by exact_mod_cast hl
    have a0 : 0 ≤ ((m : ℝ) / nl) ^ 16 := by positivity
    have a1 : Real.exp (-40 * ((m : ℝ) / nl) ^ 16) ≤ 1 := Real.exp_le_one_iff.mpr (by linarith)
    have a2 : Real.exp (-40 * ((l : ℝ) / nl) ^ 16) ≤ Real.exp (-40 / (nl : ℝ) ^ 16) := by
      rw [Real.exp_le_exp, div_pow]
      have : (1 : ℝ) / (nl : ℝ) ^ 16 ≤ (l : ℝ) ^ 16 / (nl : ℝ) ^ 16 := div_le_div_of_nonneg_right (one_le_pow₀ l1) (by positivity)
      have e : -40 / (nl : ℝ) ^ 16 = -40 * (1 / (nl : ℝ) ^ 16) := by ring
      rw [e]
      linarith
    calc _ ≤ Real.exp (-40 / (nl : ℝ) ^ 16) * 1 := mul_le_mul a2 a1 (Real.exp_pos _).le (Real.exp_pos _).le
      _ = _ := mul_one _
  · exact absurd rfl hne

theorem rate_lt_one {nl : ℕ} (hnl : 1 ≤ nl) : Real.exp (-40 / (nl : ℝ) ^ 16) < 1 := by
  have n0 : (0:ℝ) < nl := by exact_mod_cast hnl
  rw [Real.exp_lt_one_iff]
  exact div_neg_of_neg_of_pos (by norm_num) (by positivity)

theorem modeF_high {s : ℕ × ℕ} (hs : s.1 < s.2) (u : ℕ → ℝ) (i : ℕ) : modeF P g x A s u i = 0 := by
  unfold modeF
  have : fieldR P.nl P.nm (oneC s (shC g A u (g.d.dX i))) (Real.arccos (x (g.d.dT i))) (phiN P.nphi (g.d.dP i)) =
      fieldR P.nl P.nm (fun _ _ => 0) (Real.arccos (x (g.d.dT i))) (phiN P.nphi (g.d.dP i)) := by
    apply fieldR_congr
    intro l m hml _ _
    rw [oneC, if_neg]
    rintro ⟨rfl, rfl⟩
    omega
  rw [this]
  unfold fieldR
  simp

/-- **The filter on finite states**: a linear map whose powers converge. -/
theorem filter_map (h : Exact E P g q x A) (hnl : 1 ≤ P.nl) (hn : g.d.total = n) : ∃ (D Q : State n →L[ℝ] State n) (M : ℝ),
    (∀ k, ‖D ^ k - Q‖ ≤ M * Real.exp (-40 / (P.nl : ℝ) ^ 16) ^ k) ∧ ∀ s, g.filtP (arr s.1) = arr (D s).1 ∧ g.filtP (arr s.2) = arr (D s).2 := by
  classical
  obtain ⟨p, hp⟩ := modes_clm (P := P) (g := g) (x := x) (A := A) h n
  obtain ⟨pp, hpp⟩ : ∃ pp : ℕ × ℕ → State n →L[ℝ] State n, pp = fun s => (p s).prodMap (p s) := ⟨_, rfl⟩
  obtain ⟨S, hS⟩ : ∃ S, S = (modes P.nl P.nm).filter fun s => s.2 ≤ s.1 := ⟨_, rfl⟩
  have hSum : ∀ y, ∑ s ∈ S, filtD P.nl P.nm s.1 s.2 • p s y = ∑ s ∈ modes P.nl P.nm, filtD P.nl P.nm s.1 s.2 • p s y := by
    intro y
    rw [hS, Finset.sum_filter]
    refine Finset.sum_congr rfl fun s _ => ?_
    split_ifs with hh
    · rfl
    · have : p s y = 0 := by funext i; rw [hp, modeF_high (by omega)]; rfl
      rw [this, smul_zero]
  obtain ⟨D, hD⟩ : ∃ D : State n →L[ℝ] State n, D = ∑ s ∈ S, filtD P.nl P.nm s.1 s.2 • pp s := ⟨_, rfl⟩
  have hDap : ∀ s : State n, D s = (∑ t ∈ S, filtD P.nl P.nm t.1 t.2 • p t s.1, ∑ t ∈ S, filtD P.nl P.nm t.1 t.2 • p t s.2) := by
    intro s
    rw [hD, hpp, _root_.sum_apply]
    refine Prod.ext ?_ ?_
    · rw [Prod.fst_sum]; rfl
    · rw [Prod.snd_sum]; rfl
  have act : ∀ s : State n, g.filtP (arr s.1) = arr (D s).1 ∧ g.filtP (arr s.2) = arr (D s).2 := by
    intro s
    rw [hDap]
    dsimp only
    exact ⟨by rw [hSum, filt_field h hn hp], by rw [hSum, filt_field h hn hp]⟩
  have hmode : ∀ s ∈ S, D * pp s = filtD P.nl P.nm s.1 s.2 • pp s := by
    intro s _
    refine ContinuousLinearMap.ext fun y => ?_
    rw [ContinuousLinearMap.mul_apply]
    have e : pp s y = (p s y.1, p s y.2) := by rw [hpp]; rfl
    have a := act (pp s y)
    rw [e] at a
    dsimp only at a
    rw [filt_mode h hn hp, filt_mode h hn hp] at a
    rw [ContinuousLinearMap.smul_apply, e]
    exact Prod.ext (arr_inj a.1).symm (arr_inj a.2).symm
  obtain ⟨M, hM⟩ := diag_limit (S := S) (lam := fun s => filtD P.nl P.nm s.1 s.2) (p := pp) hD hmode (fun s _ => filtD_pos _ _ _ _)
    (Real.exp_pos (-40 / (P.nl : ℝ) ^ 16)) (fun s hs hne => filtD_le hnl hne (by rw [hS] at hs; exact (Finset.mem_filter.mp hs).2))
  exact ⟨D, _, M, hM, act⟩

end SFK
