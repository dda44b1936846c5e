import Verif.Spec.Azimuth
import Verif.Lemmas.Mirror
import Verif.Lemmas.ModesL
/-
Reversing the azimuth: transforms, operators, grid.
-/
namespace SFK
open Scalar CR ComplexConjugate

/-! ## Transforms -/

/-- the opposite longitude -/
def opp (n ip : ℕ) : ℕ := (n - ip) % n

theorem opp_lt {n ip : ℕ} (h : ip < n) : opp n ip < n := Nat.mod_lt _ (by omega)

theorem opp_opp {n ip : ℕ} (h : ip < n) : opp n (opp n ip) = ip := by
  unfold opp
  rcases Nat.eq_zero_or_pos ip with rfl | h0
  · simp
  · rw [Nat.mod_eq_of_lt (show n - ip < n by omega), show n - (n - ip) = ip by omega, Nat.mod_eq_of_lt h]

theorem phi_opp {n ip : ℕ} (h : ip < n) : ∃ k : ℤ, phiN n (opp n ip) = -phiN n ip + k * (2 * Real.pi) := by
  have hn : (n : ℝ) ≠ 0 := by have : 0 < n := by omega
                              exact_mod_cast this.ne'
  unfold opp phiN
  rcases Nat.eq_zero_or_pos ip with rfl | h0
  · exact ⟨0, by simp⟩
  · refine ⟨1, ?_⟩
    rw [Nat.mod_eq_of_lt (show n - ip < n by omega), Nat.cast_sub h.le]
    field_simp
    push_cast
    ring

theorem exp_opp {n ip : ℕ} (h : ip < n) (m : ℕ) : Complex.exp (-(Complex.I * m * phiN n (opp n ip))) = conj (Complex.exp (-(Complex.I * m * phiN n ip))) := by
  obtain ⟨k, hk⟩ := phi_opp h
  rw [hk, ← Complex.exp_conj, map_neg, map_mul, map_mul, Complex.conj_I, Complex.conj_ofReal, Complex.conj_natCast]
  rw [show -(Complex.I * m * ((-phiN n ip + k * (2 * Real.pi) : ℝ) : ℂ)) = -(-Complex.I * m * phiN n ip) + ((-(m * k) : ℤ) : ℂ) * (2 * Real.pi * Complex.I) by
    push_cast; ring, Complex.exp_add, Complex.exp_int_mul_two_pi_mul_I, mul_one]

theorem anaN_opp {A : ℕ → ℕ → ℕ → ℝ} {nlat nphi : ℕ} (u : ℕ → ℕ → ℝ) (l m : ℕ) :
    anaN A nlat nphi (fun it ip => u it (opp nphi ip)) l m = conj (anaN A nlat nphi u l m) := by
  unfold anaN
  rw [map_sum]
  refine Finset.sum_congr rfl fun it _ => ?_
  rw [map_mul, Complex.conj_ofReal, map_sum]
  congr 1
  refine Finset.sum_nbij' (opp nphi) (opp nphi) ?_ ?_ ?_ ?_ ?_
  · intro ip hip; rw [Finset.mem_range] at hip ⊢; exact opp_lt hip
  · intro ip hip; rw [Finset.mem_range] at hip ⊢; exact opp_lt hip
  · intro ip hip; rw [Finset.mem_range] at hip; exact opp_opp hip
  · intro ip hip; rw [Finset.mem_range] at hip; exact opp_opp hip
  · intro ip hip
    rw [Finset.mem_range] at hip
    beta_reduce
    rw [map_mul, Complex.conj_ofReal, exp_opp hip, Complex.conj_conj]

theorem Ylm_neg (l m : ℕ) (θ φ : ℝ) : Ylm l m θ (-φ) = conj (Ylm l m θ φ) := by
  unfold Ylm
  rw [map_mul, Complex.conj_ofReal, ← Complex.exp_conj, map_mul, map_mul, Complex.conj_I, Complex.conj_ofReal]
  congr 2
  simp

theorem fieldR_conj (L M : ℕ) (c : ℕ → ℕ → ℂ) (θ φ : ℝ) : fieldR L M (fun l m => conj (c l m)) θ φ = fieldR L M c θ (-φ) := by
  unfold fieldR
  refine Finset.sum_congr rfl fun l _ => ?_
  rw [Complex.conj_re]
  congr 2
  rw [Complex.re_sum, Complex.re_sum]
  refine Finset.sum_congr rfl fun m _ => ?_
  rw [Ylm_neg, ← Complex.conj_re, map_mul, Complex.conj_conj]

theorem Ylm_period (l m : ℕ) (θ φ : ℝ) (k : ℤ) : Ylm l m θ (φ + k * (2 * Real.pi)) = Ylm l m θ φ := by
  unfold Ylm
  rw [show Complex.I * ((m : ℤ) : ℂ) * ((φ + k * (2 * Real.pi) : ℝ) : ℂ) = Complex.I * ((m : ℤ) : ℂ) * φ + ((m * k : ℤ) : ℂ) * (2 * Real.pi * Complex.I) by
    push_cast; ring, Complex.exp_add, Complex.exp_int_mul_two_pi_mul_I, mul_one]

theorem fieldR_period (L M : ℕ) (c : ℕ → ℕ → ℂ) (θ φ : ℝ) (k : ℤ) : fieldR L M c θ (φ + k * (2 * Real.pi)) = fieldR L M c θ φ := by
  unfold fieldR
  simp only [Ylm_period]

theorem fieldR_opp (L M : ℕ) (c : ℕ → ℕ → ℂ) (θ : ℝ) {n ip : ℕ} (h : ip < n) :
    fieldR L M (fun l m => conj (c l m)) θ (phiN n ip) = fieldR L M c θ (phiN n (opp n ip)) := by
  obtain ⟨k, hk⟩ := phi_opp h
  rw [hk, fieldR_period, fieldR_conj]

/-! ## Operators -/

section ops
variable {s : Sphere CR} {x : ℕ → ℝ} {A : ℕ → ℕ → ℕ → ℝ}

theorem mulN_opp {μ : ℕ → ℕ → ℂ} (hμ : ∀ l m, conj (μ l m) = μ l m) (u : ℕ → ℕ → ℝ) (it : ℕ) {ip : ℕ} (hip : ip < s.nphi) :
    mulN s x A μ (fun it ip => u it (opp s.nphi ip)) it ip = mulN s x A μ u it (opp s.nphi ip) := by
  unfold mulN
  rw [← fieldR_opp _ _ _ _ hip]
  apply fieldR_congr
  intro l m _ _ _
  rw [anaN_opp]
  by_cases h : l < s.lmax ∧ m < s.mmax
  · rw [if_pos h, if_pos h, map_mul, hμ]
  · rw [if_neg h, if_neg h]

/-- the analysis of `u` has no content in the top degree and order -/
def AnaBelow (s : Sphere CR) (A : ℕ → ℕ → ℕ → ℝ) (u : ℕ → ℕ → ℝ) : Prop :=
  ∀ l m, l ≤ s.lmax → m ≤ l → m ≤ s.mmax → ¬(l < s.lmax ∧ m < s.mmax) → anaN A s.nlat s.nphi u l m = 0

theorem fieldR_neg' (L M : ℕ) (c : ℕ → ℕ → ℂ) (θ φ : ℝ) : fieldR L M (fun l m => -c l m) θ φ = -fieldR L M c θ φ := by
  unfold fieldR
  rw [← Finset.sum_neg_distrib]
  refine Finset.sum_congr rfl fun l _ => ?_
  rw [Complex.neg_re]
  have : ∑ m ∈ Finset.Icc 1 (min l M), -c l m * Ylm l m θ φ = -∑ m ∈ Finset.Icc 1 (min l M), c l m * Ylm l m θ φ := by
    rw [← Finset.sum_neg_distrib]
    exact Finset.sum_congr rfl fun m _ => by ring
  rw [this, Complex.neg_re]
  ring

theorem mulN_phi_opp {u : ℕ → ℕ → ℝ} (hu : AnaBelow s A u) (it : ℕ) {ip : ℕ} (hip : ip < s.nphi) :
    mulN s x A phiM (fun it ip => u it (opp s.nphi ip)) it ip = -mulN s x A phiM u it (opp s.nphi ip) := by
  unfold mulN
  rw [← fieldR_opp _ _ _ _ hip, ← fieldR_neg']
  apply fieldR_congr
  intro l m a b c
  rw [anaN_opp]
  by_cases h : l < s.lmax ∧ m < s.mmax
  · rw [if_pos h, if_pos h, map_mul]
    unfold phiM
    simp
  · rw [if_neg h, if_neg h, hu l m a b c h]
    simp

theorem sphXV_opp {L M : ℕ} {c c' : ℕ → ℕ → ℂ} (hc : ∀ l m, l ≤ L → m ≤ l → m ≤ M → ¬(l < L ∧ m < M) → c l m = 0)
    (hcc : ∀ l m, c' l m = conj (c l m)) (θ φ : ℝ) : sphXV L M c' θ φ = sphXV L M c θ (-φ) := by
  have hcc' : c' = fun l m => conj (c l m) := by funext l m; exact hcc l m
  have e : fieldR L M (lowC L c') = fun θ φ => fieldR L M (lowC L c) θ (-φ) := by
    funext θ φ
    rw [← fieldR_conj]
    congr 1
    funext l m
    unfold lowC
    rw [hcc]
    split_ifs <;> simp
  have e2 : fieldR L M (topC L c') θ φ = 0 ∧ fieldR L M (topC L c) θ (-φ) = 0 := by
    have z : ∀ θ φ, fieldR L M (fun _ _ => (0 : ℂ)) θ φ = 0 := fun θ φ => by unfold fieldR; simp
    constructor
    · rw [fieldR_congr (c' := fun _ _ => (0 : ℂ)) (fun l m a b d => ?_), z]
      unfold topC
      by_cases hl : l < L
      · rw [if_pos hl]
      · rw [if_neg hl, hcc, hc l m a b d (fun h => hl h.1), map_zero]
    · rw [fieldR_congr (c' := fun _ _ => (0 : ℂ)) (fun l m a b d => ?_), z]
      unfold topC
      by_cases hl : l < L
      · rw [if_pos hl]
      · rw [if_neg hl, hc l m a b d (fun h => hl h.1)]
  have e3 : fieldR L M (phiC L M c') θ φ = -fieldR L M (phiC L M c) θ (-φ) := by
    rw [← fieldR_conj, ← fieldR_neg']
    apply fieldR_congr
    intro l m a b d
    unfold phiC
    rw [hcc]
    by_cases h : l < L ∧ m < M
    · rw [if_pos h, if_pos h, map_mul]
      simp
    · rw [if_neg h, if_neg h, hc l m a b d h]
      simp
  unfold sphXV
  rw [e, e2.1, e2.2, e3]
  unfold dTh dPh
  beta_reduce
  rw [deriv_comp_neg (f := fun t => fieldR L M (lowC L c) θ t)]
  ring

end ops

/-! ## The grid -/

/-- the flat index of the grid point at the opposite longitude -/
def Dims.azi (d : Dims) (i : ℕ) : ℕ := d.pos3 (d.dX i) (d.dT i) (opp d.nphi (d.dP i))

section lift
variable {d : Dims}

theorem Dims.azi_in {i : ℕ} (hi : i < d.total) : d.InR (d.dX i) (d.dT i) (opp d.nphi (d.dP i)) := by
  obtain ⟨h1, _⟩ := d.dec3 hi
  exact ⟨h1.1, h1.2.1, opp_lt h1.2.2⟩

theorem Dims.azi_lt {i : ℕ} (hi : i < d.total) : d.azi i < d.total := d.pos3_lt (d.azi_in hi)

theorem Dims.azi_dec {i : ℕ} (hi : i < d.total) : d.dX (d.azi i) = d.dX i ∧ d.dT (d.azi i) = d.dT i ∧ d.dP (d.azi i) = opp d.nphi (d.dP i) :=
  ⟨d.dX_pos3 (d.azi_in hi), d.dT_pos3 (d.azi_in hi), d.dP_pos3 (d.azi_in hi)⟩

theorem Dims.azi_pos3 {ix it ip : ℕ} (h : d.InR ix it ip) : d.azi (d.pos3 ix it ip) = d.pos3 ix it (opp d.nphi ip) := by
  unfold Dims.azi
  rw [d.dX_pos3 h, d.dT_pos3 h, d.dP_pos3 h]

theorem lift_lines_azi (h : d.Ok) {T : List CR → List CR} (hT : LinR d.nx T) :
    ∃ D, ActsF d.total (fun v => d.ofLines fun it ip => T (d.lineOf v it ip)) D ∧ RotF d.total d.azi D ∧
      ∀ u i, i < d.total → D (fun j => -u j) i = -D u i := by
  obtain ⟨D, a, b⟩ := hT
  refine ⟨fun u i => D (fun ix => u (d.pos3 ix (d.dT i) (d.dP i))) (d.dX i), ?_, ?_, ?_⟩
  · intro v u hv
    refine ⟨by simp, fun i hi => ?_⟩
    obtain ⟨h1, h2⟩ := d.dec3 hi
    unfold Dims.ofLines Dims.mk3
    rw [gv_tab hi]
    refine (a _ (fun ix => u (d.pos3 ix (d.dT i) (d.dP i))) ⟨by simp, fun ix hx => ?_⟩).2 _ h1.1
    unfold Dims.lineOf
    rw [gv_tab hx, hv.at3 h ⟨hx, h1.2.1, h1.2.2⟩]
  · intro u i hi
    obtain ⟨h1, h2⟩ := d.dec3 hi
    obtain ⟨r1, r2, r3⟩ := d.azi_dec hi
    beta_reduce
    rw [r1, r2, r3]
    refine a.congr (fun j hj => ?_) _ h1.1
    rw [d.azi_pos3 ⟨hj, h1.2.1, h1.2.2⟩]
  · intro u i hi
    obtain ⟨h1, h2⟩ := d.dec3 hi
    beta_reduce
    have := b (-1) 0 (fun ix => u (d.pos3 ix (d.dT i) (d.dP i))) (fun ix => u (d.pos3 ix (d.dT i) (d.dP i))) (d.dX i) h1.1
    simp only [zero_mul, add_zero, neg_one_mul] at this
    exact this

theorem lift_shells_azi {D : (ℕ → ℕ → ℝ) → ℕ → ℕ → ℝ} {B : (ℕ → ℕ → ℝ) → Prop} {σ : ℝ}
    (hc : ∀ u w : ℕ → ℕ → ℝ, (∀ it ip, it < d.nlat → ip < d.nphi → u it ip = w it ip) → D u = D w)
    (hD : ∀ u it ip, B u → it < d.nlat → ip < d.nphi → D (fun it ip => u it (opp d.nphi ip)) it ip = σ * D u it (opp d.nphi ip))
    (u : ℕ → ℝ) (hB : ∀ ix, ix < d.nx → B fun it ip => u (d.pos3 ix it ip)) {i : ℕ} (hi : i < d.total) :
    (fun (u : ℕ → ℝ) i => D (fun it ip => u (d.pos3 (d.dX i) it ip)) (d.dT i) (d.dP i)) (fun j => u (d.azi j)) i
      = σ * (fun (u : ℕ → ℝ) i => D (fun it ip => u (d.pos3 (d.dX i) it ip)) (d.dT i) (d.dP i)) u (d.azi i) := by
  obtain ⟨h1, h2⟩ := d.dec3 hi
  obtain ⟨r1, r2, r3⟩ := d.azi_dec hi
  beta_reduce
  rw [r1, r2, r3, ← hD _ _ _ (hB _ h1.1) h1.2.1 h1.2.2]
  have := hc (fun it ip => u (d.azi (d.pos3 (d.dX i) it ip))) (fun it ip => u (d.pos3 (d.dX i) it (opp d.nphi ip)))
    (fun it ip ht hp => by rw [d.azi_pos3 ⟨h1.1, ht, hp⟩])
  exact congrFun (congrFun this _) _

theorem reversed_iff (hw : d.Ok) (v w : List CR) : Reversed d v w ↔ ∀ i, i < d.total → gv w i = gv v (d.azi i) := by
  constructor
  · intro h i hi
    obtain ⟨h1, h2⟩ := d.dec3 hi
    have hr := d.azi_in hi
    have := h _ _ _ h1.1 h1.2.1 h1.2.2
    change _ = d.at3 v (d.dX i) (d.dT i) (opp d.nphi (d.dP i)) at this
    rw [hw.at3_eq _ h1, hw.at3_eq _ hr, h2] at this
    exact this
  · intro h ix it ip hx ht hp
    have hr : d.InR ix it ip := ⟨hx, ht, hp⟩
    show _ = d.at3 v ix it (opp d.nphi ip)
    rw [hw.at3_eq _ hr, hw.at3_eq _ ⟨hx, ht, opp_lt hp⟩, h _ (d.pos3_lt hr), d.azi_pos3 hr]

end lift

/-! ## The coefficients -/

/-- the coefficients of the mixed derivatives with the opposite sign -/
noncomputable def Coef.flip (c : Coef CR) : Coef CR := { c with p_dphi_dr_f := -c.p_dphi_dr_f, p_dr_f_dphi_f := -c.p_dr_f_dphi_f, rho_rphi := -c.rho_rphi }

theorem cneg_mul (a b : CR) : -a * b = -(a * b) := by cases a <;> cases b <;> simp
theorem cmul_neg (a b : CR) : a * -b = -(a * b) := by cases a <;> cases b <;> simp
theorem cneg_neg (a : CR) : - -a = a := by cases a <;> simp
theorem cneg_div (a b : CR) : -a / b = -(a / b) := by
  cases a with
  | bad => cases b <;> rfl
  | fin a =>
    cases b with
    | bad => rfl
    | fin b =>
      by_cases hb : b = 0
      · subst hb
        rw [fin_neg]
        show (if (0 : ℝ) = 0 then _ else _) = -(if (0 : ℝ) = 0 then _ else _)
        simp
      · rw [fin_neg, fin_div _ _ hb, fin_div _ _ hb, fin_neg, neg_div]

theorem kerrRp_spin (M a : ℝ) : kerrRp (fin M) (fin (-a)) = kerrRp (fin M) (fin a) := by
  unfold kerrRp
  have e1 : (fabs (fin (-a)) : CR) = fabs (fin a) := by rw [fin_fabs, fin_fabs, abs_neg]
  have e2 : ((fin M - fin (-a)) * (fin M + fin (-a)) : CR) = (fin M - fin a) * (fin M + fin a) := by
    simp only [fin_sub, fin_add, fin_mul, fin_inj]
    ring
  rw [e1, e2]

theorem kerrRm_spin (M a : ℝ) : kerrRm (fin M) (fin (-a)) = kerrRm (fin M) (fin a) := by
  unfold kerrRm
  rw [kerrRp_spin]
  have e1 : (fabs (fin (-a)) : CR) = fabs (fin a) := by rw [fin_fabs, fin_fabs, abs_neg]
  have e2 : (pown (fin (-a)) 2 : CR) = pown (fin a) 2 := by rw [fin_pown, fin_pown, neg_sq]
  rw [e1, e2]

theorem coefOf_spin (M a : ℝ) (ir th : CR) : coefOf (fin M) (fin (-a)) ir th = (coefOf (fin M) (fin a) ir th).flip := by
  have h2 : (pown (fin (-a)) 2 : CR) = pown (fin a) 2 := by rw [fin_pown, fin_pown, neg_sq]
  have h3 : (pown (fin (-a) * ir) 2 : CR) = pown (fin a * ir) 2 := by
    cases ir with
    | bad => rfl
    | fin r => rw [fin_mul, fin_mul, fin_pown, fin_pown]; congr 1; ring
  unfold coefOf Coef.flip
  rw [kerrRp_spin, kerrRm_spin, h2, h3, ← fin_neg]
  simp only [cneg_mul, cmul_neg, cneg_div]

variable {e : Eom CR}

theorem pk_flip (c : Coef CR) (f p r vr rr ph rph X lap : CR) : e.pk c.flip f p r vr rr (-ph) (-rph) X lap = e.pk c f p r vr rr ph rph X lap := by
  unfold Eom.pk Coef.flip
  dsimp only
  rw [cneg_mul, cmul_neg, cneg_neg, cneg_mul, cneg_mul, cmul_neg, cneg_neg]

theorem rho_flip (c : Coef CR) (f p r ph X : CR) : e.rhoVal c.flip f p r (-ph) X = e.rhoVal c f p r ph X := by
  unfold Eom.rhoVal Coef.flip
  dsimp only
  rw [cneg_mul, cneg_mul, cmul_neg, cneg_neg]

end SFK
