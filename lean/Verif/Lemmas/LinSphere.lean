import Verif.Props.SphereMath
/-
The angular operators on arbitrary finite grid data (not only on resolved fields): values in terms of the coefficients the
analysis returns, linearity, and behaviour under cyclic shifts in the azimuthal index.
-/
namespace SFK
open Scalar CR

/-- `v` holds the numbers `u it ip`. -/
def Is2 (contig : Bool) (nlat nphi : ℕ) (v : List CR) (u : ℕ → ℕ → ℝ) : Prop :=
  v.length = nlat * nphi ∧ ∀ it ip, it < nlat → ip < nphi → gv v (spos contig nlat nphi it ip) = fin (u it ip)

/-- the coefficients the analysis computes from the data `u` -/
noncomputable def anaN (A : ℕ → ℕ → ℕ → ℝ) (nlat nphi : ℕ) (u : ℕ → ℕ → ℝ) (l m : ℕ) : ℂ :=
  ∑ it ∈ Finset.range nlat, (A l m it : ℂ) * ∑ ip ∈ Finset.range nphi, (u it ip : ℂ) * Complex.exp (-(Complex.I * m * phiN nphi ip))

section ana
variable {A : ℕ → ℕ → ℕ → ℝ} {nlat nphi : ℕ}

theorem anaN_im_zero (u : ℕ → ℕ → ℝ) (l : ℕ) : (anaN A nlat nphi u l 0).im = 0 := by
  have : anaN A nlat nphi u l 0 = ((∑ it ∈ Finset.range nlat, A l 0 it * ∑ ip ∈ Finset.range nphi, u it ip : ℝ) : ℂ) := by
    unfold anaN
    push_cast
    simp
  rw [this, Complex.ofReal_im]

theorem anaN_congr {u w : ℕ → ℕ → ℝ} (h : ∀ it ip, it < nlat → ip < nphi → u it ip = w it ip) : anaN A nlat nphi u = anaN A nlat nphi w := by
  funext l m
  unfold anaN
  refine Finset.sum_congr rfl fun it hit => ?_
  congr 1
  refine Finset.sum_congr rfl fun ip hip => ?_
  rw [h it ip (Finset.mem_range.mp hit) (Finset.mem_range.mp hip)]

theorem anaN_comb (a b : ℝ) (u w : ℕ → ℕ → ℝ) (l m : ℕ) : anaN A nlat nphi (fun it ip => a * u it ip + b * w it ip) l m
    = a * anaN A nlat nphi u l m + b * anaN A nlat nphi w l m := by
  unfold anaN
  rw [Finset.mul_sum, Finset.mul_sum, ← Finset.sum_add_distrib]
  refine Finset.sum_congr rfl fun it _ => ?_
  rw [Finset.mul_sum, Finset.mul_sum, Finset.mul_sum, Finset.mul_sum, Finset.mul_sum, ← Finset.sum_add_distrib]
  refine Finset.sum_congr rfl fun ip _ => ?_
  push_cast
  ring

/-- a periodic function summed over a cyclic shift -/
theorem sum_cyc {β : Type} [AddCommMonoid β] {n : ℕ} (hn : 0 < n) (k : ℕ) (F : ℕ → β) :
    ∑ i ∈ Finset.range n, F ((i + k) % n) = ∑ i ∈ Finset.range n, F i := by
  refine Finset.sum_bij (fun i _ => (i + k) % n) (fun i _ => Finset.mem_range.mpr (Nat.mod_lt _ hn)) ?_ ?_ fun _ _ => rfl
  · intro a ha b hb h
    rw [Finset.mem_range] at ha hb
    have : (a + k) ≡ (b + k) [MOD n] := h
    have := Nat.ModEq.add_right_cancel' k this
    rwa [Nat.ModEq, Nat.mod_eq_of_lt ha, Nat.mod_eq_of_lt hb] at this
  · intro b hb
    rw [Finset.mem_range] at hb
    refine ⟨(b + (n - k % n)) % n, Finset.mem_range.mpr (Nat.mod_lt _ hn), ?_⟩
    have hk : k % n < n := Nat.mod_lt _ hn
    have h1 : (b + (n - k % n) + k) % n = b := by
      have hk' := Nat.mod_add_div k n
      generalize k % n = r at *
      generalize k / n = q at *
      subst hk'
      rw [show b + (n - r) + (r + n * q) = b + n + n * q by omega, Nat.add_mul_mod_self_left, Nat.add_mod_right, Nat.mod_eq_of_lt hb]
    rw [Nat.mod_add_mod, h1]

theorem phase_mod {n : ℕ} (hn : 0 < n) (m : ℤ) (i : ℕ) :
    Complex.exp (Complex.I * m * phiN n (i % n)) = Complex.exp (Complex.I * m * phiN n i) := by
  have hn' : (n : ℂ) ≠ 0 := by exact_mod_cast hn.ne'
  have hk := Nat.mod_add_div i n
  generalize i % n = r at *
  generalize i / n = q at *
  subst hk
  have : Complex.I * m * phiN n (r + n * q) = Complex.I * m * phiN n r + ((m * (q : ℤ) : ℤ) : ℂ) * (2 * Real.pi * Complex.I) := by
    unfold phiN
    push_cast
    field_simp
  rw [this, Complex.exp_add, Complex.exp_int_mul_two_pi_mul_I, mul_one]

theorem phase_add (n : ℕ) (m : ℤ) (i k : ℕ) :
    Complex.exp (Complex.I * m * phiN n (i + k)) = Complex.exp (Complex.I * m * phiN n i) * Complex.exp (Complex.I * m * phiN n k) := by
  rw [← Complex.exp_add]
  congr 1
  unfold phiN
  push_cast
  ring

/-- shifting the data by `k` azimuthal points multiplies the coefficient of order `m` by `e^{im phi_k}` -/
theorem anaN_rot (hn : 0 < nphi) (k : ℕ) (u : ℕ → ℕ → ℝ) (l m : ℕ) :
    anaN A nlat nphi (fun it ip => u it ((ip + k) % nphi)) l m
      = Complex.exp (Complex.I * m * phiN nphi k) * anaN A nlat nphi u l m := by
  unfold anaN
  rw [Finset.mul_sum]
  refine Finset.sum_congr rfl fun it _ => ?_
  rw [mul_left_comm]
  congr 1
  rw [← sum_cyc hn k (fun ip => (u it ip : ℂ) * Complex.exp (-(Complex.I * m * phiN nphi ip))), Finset.mul_sum]
  refine Finset.sum_congr rfl fun ip _ => ?_
  have h1 := phase_mod hn (-(m : ℤ)) (ip + k)
  have h2 := phase_add nphi (-(m : ℤ)) ip k
  have e : ∀ j, Complex.exp (-(Complex.I * m * phiN nphi j)) = Complex.exp (Complex.I * ((-(m : ℤ) : ℤ) : ℂ) * phiN nphi j) := by
    intro j; congr 1; push_cast; ring
  rw [e, e, h1, h2]
  have : Complex.exp (Complex.I * ((-(m : ℤ) : ℤ) : ℂ) * phiN nphi k) * Complex.exp (Complex.I * m * phiN nphi k) = 1 := by
    rw [← Complex.exp_add, ← Complex.exp_zero]; congr 1; push_cast; ring
  rw [show ∀ a b c d : ℂ, a * (b * (c * d)) = (d * a) * (b * c) from fun a b c d => by ring, this, one_mul]

end ana

/-! ## Fields from coefficients -/

theorem fieldR_comb (L M : ℕ) (a b : ℝ) (c d : ℕ → ℕ → ℂ) (θ φ : ℝ) :
    fieldR L M (fun l m => a * c l m + b * d l m) θ φ = a * fieldR L M c θ φ + b * fieldR L M d θ φ := by
  unfold fieldR
  rw [Finset.mul_sum, Finset.mul_sum, ← Finset.sum_add_distrib]
  refine Finset.sum_congr rfl fun l _ => ?_
  have : ∑ m ∈ Finset.Icc 1 (min l M), (a * c l m + b * d l m) * Ylm l m θ φ
      = a * ∑ m ∈ Finset.Icc 1 (min l M), c l m * Ylm l m θ φ + b * ∑ m ∈ Finset.Icc 1 (min l M), d l m * Ylm l m θ φ := by
    rw [Finset.mul_sum, Finset.mul_sum, ← Finset.sum_add_distrib]
    refine Finset.sum_congr rfl fun m _ => ?_
    ring
  rw [this]
  simp only [Complex.add_re, Complex.re_ofReal_mul]
  ring

theorem fieldR_phase (L M : ℕ) (c : ℕ → ℕ → ℂ) (α θ φ : ℝ) :
    fieldR L M (fun l m => Complex.exp (Complex.I * m * α) * c l m) θ φ = fieldR L M c θ (φ + α) := by
  unfold fieldR
  refine Finset.sum_congr rfl fun l _ => ?_
  congr 1
  · simp
  · congr 2
    refine Finset.sum_congr rfl fun m _ => ?_
    unfold Ylm
    have : Complex.exp (Complex.I * ((m : ℤ) : ℂ) * ((φ + α : ℝ) : ℂ))
        = Complex.exp (Complex.I * m * φ) * Complex.exp (Complex.I * m * α) := by
      rw [← Complex.exp_add]; congr 1; push_cast; ring
    rw [this]
    push_cast
    ring

/-- a field at a wrapped azimuthal node -/
theorem fieldR_wrap (L M : ℕ) (c : ℕ → ℕ → ℂ) (θ : ℝ) {n : ℕ} (hn : 0 < n) (i k : ℕ) :
    fieldR L M c θ (phiN n i + phiN n k) = fieldR L M c θ (phiN n ((i + k) % n)) := by
  unfold fieldR
  refine Finset.sum_congr rfl fun l _ => ?_
  congr 3
  refine Finset.sum_congr rfl fun m _ => ?_
  unfold Ylm
  rw [phase_mod hn, show phiN n (i + k) = phiN n i + phiN n k by unfold phiN; push_cast; ring]

/-! ## The operators -/

variable {s : Sphere CR} {contig : Bool} {x : ℕ → ℝ} {A : ℕ → ℕ → ℕ → ℝ}

/-- analyse, multiply the coefficients with `l<nl`, `m<nm` by `μ`, evaluate -/
noncomputable def mulN (s : Sphere CR) (x : ℕ → ℝ) (A : ℕ → ℕ → ℕ → ℝ) (μ : ℕ → ℕ → ℂ) (u : ℕ → ℕ → ℝ) (it ip : ℕ) : ℝ :=
  fieldR s.lmax s.mmax (fun l m => if l < s.lmax ∧ m < s.mmax then μ l m * anaN A s.nlat s.nphi u l m else anaN A s.nlat s.nphi u l m)
    (Real.arccos (x it)) (phiN s.nphi ip)

theorem Is2.coefs (h : s.Wf) (hm : s.sht.Math contig s.nlat s.nphi x A) {v : List CR} {u : ℕ → ℕ → ℝ}
    (hv : Is2 contig s.nlat s.nphi v u) : s.sht.IsCoefs (s.sht.spatToSH v) (anaN A s.nlat s.nphi u) := by
  have hl : v.length = s.sht.nspat := by rw [hv.1, h.api.nspat_eq]
  exact ⟨h.api.len_spatToSH _ hl, fun l m hr => hm.ana v u hl hv.2 l m hr⟩

theorem thruP_is2 (h : s.Wf) (hm : s.sht.Math contig s.nlat s.nphi x A) {G : ℕ → ℕ → Cx CR → Cx CR} {μ : ℕ → ℕ → ℂ}
    (hG : ∀ l m z, s.Touched l m → G l m (toCx z) = toCx (μ l m * z)) {v : List CR} {u : ℕ → ℕ → ℝ}
    (hv : Is2 contig s.nlat s.nphi v u) : Is2 contig s.nlat s.nphi (s.thruP G v) (mulN s x A μ u) := by
  have hq := hv.coefs h hm
  refine ⟨by rw [h.thruP_length, h.nSph'], fun it ip h1 h2 => ?_⟩
  unfold Sphere.thruP mulN
  rw [← h.api.lmax_eq, ← h.api.mmax_eq]
  refine hm.syn _ _ ⟨by simp, fun l m hres => ?_⟩ it ip h1 h2
  unfold Sphere.scaleP
  rw [h.api.cf_mkLM hres, hq.2 l m hres]
  have hiff : s.Touched l m ↔ (l < s.sht.lmax ∧ m < s.sht.mmax) := by
    have := hres.1
    rw [h.api.lmax_eq, h.api.mmax_eq]
    unfold Sphere.Touched
    omega
  beta_reduce
  by_cases ht : s.Touched l m
  · rw [if_pos ht, if_pos (hiff.mp ht), hG l m _ ht]
  · rw [if_neg ht, if_neg (fun hh => ht (hiff.mpr hh))]

noncomputable def lapM (l _m : ℕ) : ℂ := -((l : ℂ) * (l + 1))
noncomputable def phiM (_l m : ℕ) : ℂ := Complex.I * m
noncomputable def filtM (L : ℕ) (l m : ℕ) : ℂ := ((Real.exp (-40 * ((l : ℝ) / L) ^ 16) * Real.exp (-40 * ((m : ℝ) / L) ^ 16) : ℝ) : ℂ)

theorem lapP_is2 (h : s.Wf) (hm : s.sht.Math contig s.nlat s.nphi x A) {v : List CR} {u : ℕ → ℕ → ℝ}
    (hv : Is2 contig s.nlat s.nphi v u) : Is2 contig s.nlat s.nphi (s.lapP v) (mulN s x A lapM u) := by
  refine thruP_is2 h hm ?_ hv
  intro l m z _
  simp only [Cx.smul, toCx, fin_dbl, fin_neg, fin_ofNat_one, fin_add, fin_mul, lapM]
  congr 2 <;> simp <;> ring

theorem phiP_is2 (h : s.Wf) (hm : s.sht.Math contig s.nlat s.nphi x A) {v : List CR} {u : ℕ → ℕ → ℝ}
    (hv : Is2 contig s.nlat s.nphi v u) : Is2 contig s.nlat s.nphi (s.phiP v) (mulN s x A phiM u) := by
  refine thruP_is2 h hm ?_ hv
  intro l m z _
  simp only [Cx.mul, toCx, fin_dbl, fin_ofNat_one, fin_ofNat_zero, fin_add, fin_mul, fin_sub, phiM]
  congr 2 <;> simp <;> ring

theorem filtP_is2 (h : s.Wf) (hm : s.sht.Math contig s.nlat s.nphi x A) {v : List CR} {u : ℕ → ℕ → ℝ}
    (hv : Is2 contig s.nlat s.nphi v u) : Is2 contig s.nlat s.nphi (s.filtP v) (mulN s x A (filtM s.lmax) u) := by
  refine thruP_is2 h hm ?_ hv
  intro l m z ht
  have hL : (s.lmax : ℝ) ≠ 0 := by
    have := ht.1
    have : 0 < s.lmax := by omega
    exact_mod_cast this.ne'
  simp only [Cx.smul, toCx, Sphere.lowF, fin_dbl, fin_div _ _ hL, fin_ofNat', fin_neg, fin_pown, fin_mul, fin_exp, filtM]
  generalize Real.exp (-40 * ((l : ℝ) / s.lmax) ^ 16) = a
  generalize Real.exp (-40 * ((m : ℝ) / s.lmax) ^ 16) = b
  rw [Complex.re_ofReal_mul, Complex.im_ofReal_mul]
  congr 2 <;> ring

theorem mulN_comb (μ : ℕ → ℕ → ℂ) (a b : ℝ) (u w : ℕ → ℕ → ℝ) (it ip : ℕ) :
    mulN s x A μ (fun it ip => a * u it ip + b * w it ip) it ip = a * mulN s x A μ u it ip + b * mulN s x A μ w it ip := by
  unfold mulN
  rw [← fieldR_comb]
  congr 1
  funext l m
  rw [anaN_comb]
  split_ifs <;> ring

theorem mulN_congr (μ : ℕ → ℕ → ℂ) {u w : ℕ → ℕ → ℝ} (h : ∀ it ip, it < s.nlat → ip < s.nphi → u it ip = w it ip) :
    mulN s x A μ u = mulN s x A μ w := by
  funext it ip
  unfold mulN
  rw [anaN_congr h]

theorem mulN_rot (μ : ℕ → ℕ → ℂ) (hn : 0 < s.nphi) (k : ℕ) (u : ℕ → ℕ → ℝ) (it ip : ℕ) :
    mulN s x A μ (fun it ip => u it ((ip + k) % s.nphi)) it ip = mulN s x A μ u it ((ip + k) % s.nphi) := by
  unfold mulN
  rw [← fieldR_wrap _ _ _ _ hn, ← fieldR_phase]
  congr 1
  funext l m
  rw [anaN_rot hn]
  split_ifs <;> ring

/-! ## The squared angular gradient -/

/-- the part of the coefficients below the top degree -/
noncomputable def lowC (L : ℕ) (c : ℕ → ℕ → ℂ) (l m : ℕ) : ℂ := if l < L then c l m else 0
/-- the part in the top degree -/
noncomputable def topC (L : ℕ) (c : ℕ → ℕ → ℂ) (l m : ℕ) : ℂ := if l < L then 0 else c l m

/-- what `partial_phi` makes of the coefficients -/
noncomputable def phiC (L M : ℕ) (c : ℕ → ℕ → ℂ) (l m : ℕ) : ℂ := if l < L ∧ m < M then Complex.I * m * c l m else c l m

/-- value of `sphereX` for analysed coefficients `c` -/
noncomputable def sphXG (L M : ℕ) (c : ℕ → ℕ → ℂ) (θ φ : ℝ) : ℝ :=
  -(fieldC L (cutC M (raisedG L M (extC M c))) θ φ * fieldC L (cutC M (loweredG L M (extC M c))) θ φ).re
    + (fieldR L M (phiC L M c) θ φ) ^ 2

/-- the same for `L≤M+1` -/
noncomputable def sphXV (L M : ℕ) (c : ℕ → ℕ → ℂ) (θ φ : ℝ) : ℝ :=
  dTh (fieldR L M (lowC L c)) θ φ ^ 2 + (Real.cos θ / Real.sin θ) ^ 2 * dPh (fieldR L M (lowC L c)) θ φ ^ 2
    - fieldR L M (topC L c) θ φ ^ 2 + (fieldR L M (phiC L M c) θ φ) ^ 2

theorem extC_low (L M : ℕ) (c : ℕ → ℕ → ℂ) (l : ℕ) (m : ℤ) :
    extC M (lowC L c) l m = if l < L then extC M c l m else 0 := by
  unfold extC lowC
  split_ifs <;> simp

theorem extC_topc (L M : ℕ) (c : ℕ → ℕ → ℂ) (l : ℕ) (m : ℤ) :
    extC M (topC L c) l m = if l < L then 0 else extC M c l m := by
  unfold extC topC
  split_ifs <;> simp

theorem fieldC_add (L : ℕ) (c d : ℕ → ℤ → ℂ) (θ φ : ℝ) :
    fieldC L (fun l m => c l m + d l m) θ φ = fieldC L c θ φ + fieldC L d θ φ := by
  unfold fieldC
  rw [← Finset.sum_add_distrib]
  refine Finset.sum_congr rfl fun l _ => ?_
  rw [← Finset.sum_add_distrib]
  exact Finset.sum_congr rfl fun m _ => add_mul _ _ _

/-- what `raise*lower` and the azimuthal derivative combine to -/
theorem sphX_formula (L M : ℕ) (c : ℕ → ℕ → ℂ) {θ : ℝ} (φ : ℝ) (hs : Real.sin θ ≠ 0) :
    -(fieldC L (raised L (extC M c)) θ φ * fieldC L (lowered L (extC M c)) θ φ).re
      + (fieldR L M (phiC L M c) θ φ) ^ 2 = sphXV L M c θ φ := by
  have e1 : ∀ (l : ℕ) (m : ℤ), raised L (extC M c) l m = upC (extC M (lowC L c)) l m + extC M (topC L c) l m := by
    intro l m
    unfold raised upC
    rw [extC_low, extC_topc]
    split_ifs <;> simp
  have e2 : ∀ (l : ℕ) (m : ℤ), lowered L (extC M c) l m = downC (extC M (lowC L c)) l m + extC M (topC L c) l m := by
    intro l m
    unfold lowered downC
    rw [extC_low, extC_topc]
    split_ifs <;> simp
  rw [show raised L (extC M c) = fun l m => upC (extC M (lowC L c)) l m + extC M (topC L c) l m from funext fun l => funext fun m => e1 l m,
    show lowered L (extC M c) = fun l m => downC (extC M (lowC L c)) l m + extC M (topC L c) l m from funext fun l => funext fun m => e2 l m,
    fieldC_add, fieldC_add, ← fieldR_eq]
  have hd := (fieldR_dTh L M (lowC L c) φ hs).2
  have hph : fieldC L (fun l m => Complex.I * m * extC M (lowC L c) l m) θ φ = (dPh (fieldR L M (lowC L c)) θ φ : ℂ) := by
    rw [dPh_fieldR, fieldR_eq]; congr 1; funext l m; exact extC_phi M _ l m
  rw [fieldC_raise _ _ _ hs, fieldC_lower _ _ _ hs, hph, ← hd]
  unfold sphXV
  generalize dTh (fieldR L M (lowC L c)) θ φ = a
  generalize dPh (fieldR L M (lowC L c)) θ φ = b
  generalize fieldR L M (topC L c) θ φ = T
  have hE : Complex.exp (Complex.I * φ) * Complex.exp (-(Complex.I * φ)) = 1 := by rw [← Complex.exp_add]; simp
  have key : (Complex.exp (Complex.I * φ) * (a + Complex.I * ((Real.cos θ / Real.sin θ : ℝ) : ℂ) * b) + T)
      * (Complex.exp (-(Complex.I * φ)) * (-a + Complex.I * ((Real.cos θ / Real.sin θ : ℝ) : ℂ) * b) + T)
      = ((-(a ^ 2 + (Real.cos θ / Real.sin θ) ^ 2 * b ^ 2) + T ^ 2 : ℝ) : ℂ)
        + (T : ℂ) * (Complex.exp (Complex.I * φ) * (a + Complex.I * ((Real.cos θ / Real.sin θ : ℝ) : ℂ) * b)
          - Complex.exp (-(Complex.I * φ)) * (a - Complex.I * ((Real.cos θ / Real.sin θ : ℝ) : ℂ) * b)) := by
    push_cast
    have hI : Complex.I * Complex.I = -1 := Complex.I_mul_I
    linear_combination (a + Complex.I * (Complex.cos θ / Complex.sin θ) * b) * (-a + Complex.I * (Complex.cos θ / Complex.sin θ) * b) * hE
      + ((Complex.cos θ / Complex.sin θ) ^ 2 * b ^ 2) * hI
  rw [key, Complex.add_re, Complex.ofReal_re, Complex.re_ofReal_mul]
  have hre : (Complex.exp (Complex.I * φ) * (a + Complex.I * ((Real.cos θ / Real.sin θ : ℝ) : ℂ) * b)
      - Complex.exp (-(Complex.I * φ)) * (a - Complex.I * ((Real.cos θ / Real.sin θ : ℝ) : ℂ) * b)).re = 0 := by
    have e4 : Complex.exp (Complex.I * φ) = ⟨Real.cos φ, Real.sin φ⟩ := by
      rw [mul_comm, Complex.exp_mul_I]; apply Complex.ext <;> simp [Complex.cos_ofReal_re, Complex.sin_ofReal_re, Complex.cos_ofReal_im, Complex.sin_ofReal_im]
    have e5 : Complex.exp (-(Complex.I * φ)) = ⟨Real.cos φ, -Real.sin φ⟩ := by
      rw [show -(Complex.I * (φ:ℂ)) = ((-φ : ℝ) : ℂ) * Complex.I by push_cast; ring, Complex.exp_mul_I]
      apply Complex.ext <;> simp [Complex.cos_ofReal_re, Complex.sin_ofReal_re, Complex.cos_ofReal_im, Complex.sin_ofReal_im]
    rw [e4, e5]
    generalize Real.cos θ / Real.sin θ = t
    simp [Complex.sub_re, Complex.mul_re, Complex.add_re, Complex.add_im, Complex.sub_im, Complex.mul_im]
  rw [hre]
  ring

theorem anaC_eq (u : ℕ → ℕ → ℝ) (nlat nphi : ℕ) {M l : ℕ} {m : ℤ} (hm : m.natAbs ≤ M) :
    (∑ it ∈ Finset.range nlat, (wtZ A l m it : ℂ) * ∑ ip ∈ Finset.range nphi, (u it ip : ℂ) * Complex.exp (-(Complex.I * m * phiN nphi ip)))
      = extC M (anaN A nlat nphi u) l m := by
  unfold extC
  rw [if_pos hm]
  rcases lt_trichotomy m 0 with h | h | h
  · rw [if_neg (by omega), if_neg (by omega)]
    obtain ⟨k, rfl⟩ : ∃ k : ℕ, m = -(k : ℤ) := ⟨m.natAbs, by omega⟩
    have hk : (-(k : ℤ)).natAbs = k := by simp
    unfold anaN wtZ
    rw [hk, map_sum, Finset.mul_sum]
    refine Finset.sum_congr rfl fun it _ => ?_
    rw [if_neg (by omega), map_mul, Complex.conj_ofReal, map_sum]
    have : (- -(k : ℤ)).toNat = k := by simp
    rw [this]
    push_cast
    rw [mul_assoc]
    congr 2
    refine Finset.sum_congr rfl fun ip _ => ?_
    rw [map_mul, Complex.conj_ofReal, ← Complex.exp_conj]
    congr 2
    simp
  · subst h
    rw [if_pos rfl]
    have e : (∑ it ∈ Finset.range nlat, (wtZ A l 0 it : ℂ) * ∑ ip ∈ Finset.range nphi, (u it ip : ℂ)
        * Complex.exp (-(Complex.I * ((0 : ℤ) : ℂ) * phiN nphi ip))) = anaN A nlat nphi u l 0 := by
      unfold anaN wtZ
      simp
    rw [e]
    apply Complex.ext
    · simp
    · simp [anaN_im_zero]
  · rw [if_neg (by omega), if_pos h]
    obtain ⟨k, rfl⟩ : ∃ k : ℕ, m = (k : ℤ) := ⟨m.natAbs, by omega⟩
    unfold anaN wtZ
    simp

/-- `sphereX` on arbitrary finite data -/
theorem sphXP_is2 (h : s.Wf) (hm : s.sht.Math contig s.nlat s.nphi x A) (hd : s.lmax ^ 2 ≤ s.sht.ncp) {v : List CR} {u : ℕ → ℕ → ℝ}
    (hv : Is2 contig s.nlat s.nphi v u) : Is2 contig s.nlat s.nphi (s.sphXP v)
      fun it ip => sphXG s.lmax s.mmax (anaN A s.nlat s.nphi u) (Real.arccos (x it)) (phiN s.nphi ip) := by
  have hvl : v.length = s.sht.nspat := by rw [hv.1, h.api.nspat_eq]
  have hq : s.sht.IsCoefsC (s.sht.spatToSHC (v.map Cx.ofRe)) (extC s.mmax (anaN A s.nlat s.nphi u)) := by
    refine ⟨h.api.len_spatToSHC _ (by simpa using hvl), fun l m hr => ?_⟩
    rw [hm.anaC (v.map Cx.ofRe) (fun it ip => (u it ip : ℂ)) (by simpa using hvl) ?_ l m hr,
      anaC_eq u s.nlat s.nphi (M := s.mmax) (by have := hr.2.2; rw [h.api.mmax_eq, abs_le] at this; omega)]
    intro it ip a b
    have hlt := spos_lt (contig := contig) a b
    have : gv (v.map Cx.ofRe) (spos contig s.nlat s.nphi it ip) = Cx.ofRe (gv v (spos contig s.nlat s.nphi it ip)) := by
      unfold gv
      rw [List.getElem?_map, List.getElem?_eq_getElem (by rw [hv.1]; exact hlt)]
      rfl
    rw [this, hv.2 it ip a b]
    unfold Cx.ofRe toCx
    simp
  have r1 : s.sht.RepC (s.ladP s.raiseP v) (raisedG s.lmax s.mmax (extC s.mmax (anaN A s.nlat s.nphi u))) := ⟨_, raiseP_coefs h hq, rfl⟩
  have r2 : s.sht.RepC (s.ladP s.lowerP v) (loweredG s.lmax s.mmax (extC s.mmax (anaN A s.nlat s.nphi u))) := ⟨_, lowerP_coefs h hd hq, rfl⟩
  have r3 := phiP_is2 h hm hv
  refine ⟨by simp [Sphere.sphXP, h.nSph'], fun it ip h1 h2 => ?_⟩
  unfold Sphere.sphXP
  rw [gv_tab (by rw [h.nSph']; exact spos_lt h1 h2), (repC_samples h hm r1).2 it ip h1 h2,
    (repC_samples h hm r2).2 it ip h1 h2, r3.2 it ip h1 h2]
  beta_reduce
  unfold sphXG mulN phiM phiC
  simp only [toCx, Cx.mul, fin_mul, fin_sub, fin_neg, fin_pown, fin_add]
  congr 1

/-- with all orders, or all but the highest one, the loops find the modes they look for -/
theorem sphXG_eq {L M : ℕ} (hLM : L ≤ M + 1) (c : ℕ → ℕ → ℂ) {θ : ℝ} (φ : ℝ) (hs : Real.sin θ ≠ 0) : sphXG L M c θ φ = sphXV L M c θ φ := by
  have key : ∀ l m, l ≤ L → -(l : ℤ) ≤ m → m ≤ l → cutC M (raisedG L M (extC M c)) l m = raised L (extC M c) l m ∧
      cutC M (loweredG L M (extC M c)) l m = lowered L (extC M c) l m := by
    intro l m hl h1 h2
    have ha : |m| ≤ (l : ℤ) := abs_le.mpr ⟨h1, h2⟩
    unfold cutC
    by_cases hc : |m| ≤ (M : ℤ)
    · rw [if_pos hc, if_pos hc]
      exact ladderG_eq hLM hl ha hc _
    · rw [if_neg hc, if_neg hc]
      have : ¬ l < L := by rw [abs_le] at hc; omega
      unfold raised lowered
      rw [if_neg this, if_neg this, extC_cut hc]; exact ⟨rfl, rfl⟩
  unfold sphXG
  rw [fieldC_congr (fun l m a b d => (key l m a b d).1), fieldC_congr (fun l m a b d => (key l m a b d).2), sphX_formula _ _ _ _ hs]

theorem fieldR_phase_fun (L M : ℕ) (c : ℕ → ℕ → ℂ) (α : ℝ) :
    fieldR L M (fun l m => Complex.exp (Complex.I * m * α) * c l m) = fun θ φ => fieldR L M c θ (φ + α) :=
  funext fun θ => funext fun φ => fieldR_phase L M c α θ φ

theorem sphXV_phase (L M : ℕ) (c : ℕ → ℕ → ℂ) (α θ φ : ℝ) :
    sphXV L M (fun l m => Complex.exp (Complex.I * m * α) * c l m) θ φ = sphXV L M c θ (φ + α) := by
  have e1 : lowC L (fun l m => Complex.exp (Complex.I * m * α) * c l m) = fun l (m : ℕ) => Complex.exp (Complex.I * m * α) * lowC L c l m := by
    funext l m; unfold lowC; split_ifs <;> simp
  have e2 : topC L (fun l m => Complex.exp (Complex.I * m * α) * c l m) = fun l (m : ℕ) => Complex.exp (Complex.I * m * α) * topC L c l m := by
    funext l m; unfold topC; split_ifs <;> simp
  have e3 : phiC L M (fun l m => Complex.exp (Complex.I * m * α) * c l m) = fun l (m : ℕ) => Complex.exp (Complex.I * m * α) * phiC L M c l m := by
    funext l m; unfold phiC; split_ifs <;> ring
  unfold sphXV
  rw [e1, e2, e3, fieldR_phase_fun, fieldR_phase_fun, fieldR_phase_fun]
  unfold dTh dPh
  rw [deriv_comp_add_const]

theorem sphXV_wrap (L M : ℕ) (c : ℕ → ℕ → ℂ) (θ : ℝ) {n : ℕ} (hn : 0 < n) (i k : ℕ) :
    sphXV L M c θ (phiN n i + phiN n k) = sphXV L M c θ (phiN n ((i + k) % n)) := by
  have e : dTh (fieldR L M (lowC L c)) θ (phiN n i + phiN n k) = dTh (fieldR L M (lowC L c)) θ (phiN n ((i + k) % n)) := by
    unfold dTh
    congr 1
    funext t
    exact fieldR_wrap _ _ _ _ hn _ _
  unfold sphXV
  rw [dPh_fieldR, e]
  rw [fieldR_wrap _ _ _ _ hn, fieldR_wrap _ _ _ _ hn, fieldR_wrap _ _ _ _ hn]

theorem sphXN_rot {nlat nphi L M : ℕ} (hLM : L ≤ M + 1) (hn : 0 < nphi) (k : ℕ) (u : ℕ → ℕ → ℝ) {θ : ℝ} (hs : Real.sin θ ≠ 0) (ip : ℕ) :
    sphXG L M (anaN A nlat nphi fun it ip => u it ((ip + k) % nphi)) θ (phiN nphi ip)
      = sphXG L M (anaN A nlat nphi u) θ (phiN nphi ((ip + k) % nphi)) := by
  rw [sphXG_eq hLM _ _ hs, sphXG_eq hLM _ _ hs, ← sphXV_wrap _ _ _ _ hn, ← sphXV_phase]
  congr 1
  funext l m
  exact anaN_rot hn k u l m

theorem fieldC_comb (L : ℕ) (a b : ℝ) (c d : ℕ → ℤ → ℂ) (θ φ : ℝ) :
    fieldC L (fun l m => a * c l m + b * d l m) θ φ = a * fieldC L c θ φ + b * fieldC L d θ φ := by
  unfold fieldC
  rw [Finset.mul_sum, Finset.mul_sum, ← Finset.sum_add_distrib]
  refine Finset.sum_congr rfl fun l _ => ?_
  rw [Finset.mul_sum, Finset.mul_sum, ← Finset.sum_add_distrib]
  exact Finset.sum_congr rfl fun m _ => by ring

theorem extC_comb (M : ℕ) (a b : ℝ) (c d : ℕ → ℕ → ℂ) :
    extC M (fun l m => a * c l m + b * d l m) = fun l m => a * extC M c l m + b * extC M d l m := by
  funext l m
  unfold extC
  split_ifs
  · apply Complex.ext <;> simp
  · rfl
  · simp only [map_add, map_mul, Complex.conj_ofReal]; ring
  · simp

theorem up_comb (L M : ℕ) (a b : ℝ) (c d : ℕ → ℤ → ℂ) :
    cutC M (raisedG L M (fun l m => a * c l m + b * d l m)) = fun l m => a * cutC M (raisedG L M c) l m + b * cutC M (raisedG L M d) l m := by
  funext l m
  unfold cutC raisedG
  split_ifs <;> ring

theorem down_comb (L M : ℕ) (a b : ℝ) (c d : ℕ → ℤ → ℂ) :
    cutC M (loweredG L M (fun l m => a * c l m + b * d l m)) = fun l m => a * cutC M (loweredG L M c) l m + b * cutC M (loweredG L M d) l m := by
  funext l m
  unfold cutC loweredG
  split_ifs <;> ring

theorem phiC_comb (L M : ℕ) (a b : ℝ) (c d : ℕ → ℕ → ℂ) :
    phiC L M (fun l m => a * c l m + b * d l m) = fun l m => a * phiC L M c l m + b * phiC L M d l m := by
  funext l m
  unfold phiC
  split_ifs <;> ring

/-- `sphereX` is homogeneous of degree two -/
theorem sphXN_smul {nlat nphi L M : ℕ} (a : ℝ) (u : ℕ → ℕ → ℝ) (θ φ : ℝ) :
    sphXG L M (anaN A nlat nphi fun it ip => a * u it ip) θ φ = a ^ 2 * sphXG L M (anaN A nlat nphi u) θ φ := by
  have e0 : (anaN A nlat nphi fun it ip => a * u it ip) = fun l m => a * anaN A nlat nphi u l m + (0 : ℝ) * anaN A nlat nphi u l m := by
    funext l m
    have := anaN_comb (A := A) (nlat := nlat) (nphi := nphi) a 0 u u l m
    simpa using this
  rw [e0]
  unfold sphXG
  rw [extC_comb, up_comb, down_comb, phiC_comb, fieldC_comb, fieldC_comb, fieldR_comb]
  simp only [Complex.ofReal_zero, zero_mul, add_zero]
  rw [mul_mul_mul_comm, ← Complex.ofReal_mul, Complex.re_ofReal_mul]
  ring

theorem sphXN_congr {nlat nphi L M : ℕ} {u w : ℕ → ℕ → ℝ} (h : ∀ it ip, it < nlat → ip < nphi → u it ip = w it ip) (θ φ : ℝ) :
    sphXG L M (anaN A nlat nphi u) θ φ = sphXG L M (anaN A nlat nphi w) θ φ := by rw [anaN_congr h]

theorem fieldR_smul_fun (L M : ℕ) (c : ℕ → ℕ → ℂ) (a : ℝ) : fieldR L M (fun l m => a * c l m) = fun θ φ => a * fieldR L M c θ φ := by
  funext θ φ
  have := fieldR_comb L M a 0 c c θ φ
  simp only [Complex.ofReal_zero, zero_mul, add_zero] at this
  exact this

end SFK
