import Verif.Spec.PulseRun
import Verif.Props.ModesL
import Verif.Props.Modes
import Verif.Props.InitialData
import Verif.Props.Units
import Verif.Props.Run
/-
Lemmas for C109 and C110: power spectra of finite fields, the initial data as one harmonic, a history as an evolution.
-/
namespace SFK
open Scalar CR

variable {E : Env CR} {P : ParamRec CR} {g : Grid CR} {q : Phys} {x : ℕ → ℝ} {A : ℕ → ℕ → ℕ → ℝ}

theorem shown_zero : shown 0 = -16 := by unfold shown; rw [if_pos (by positivity)]

theorem logValue_shown (p : ℝ) : Csv.logValue (fin p) = fin (shown p) := by
  unfold shown
  split_ifs with h
  · exact (C61_log_value p).2.1 h
  · exact (C61_log_value p).1 (not_lt.mp h)

/-- the values on one shell -/
theorem shell_is2 (hok : g.d.Ok) {v : List CR} {y : ℕ → ℝ} (hv : IsF g.d.total v y) {ix : ℕ} (hx : ix < g.d.nx) :
    Is2 g.d.contig g.d.nlat g.d.nphi (g.d.shellOf v ix) fun it ip => y (g.d.pos3 ix it ip) := by
  refine ⟨by rw [Dims.shellOf_length]; rfl, fun it ip ht hp => ?_⟩
  have := hok.at2_mk2 (F := fun it ip => g.d.at3 v ix it ip) ht hp
  unfold Dims.at2 at this
  rw [hok.indx2 ht hp] at this
  unfold Dims.shellOf
  have hp2 : spos g.d.contig g.d.nlat g.d.nphi it ip = g.d.pos2 it ip := rfl
  rw [hp2, this, hv.at3 hok ⟨hx, ht, hp⟩]

/-- the power spectrum of a finite field -/
theorem spec_fin (h : Exact E P g q x A) {v : List CR} {y : ℕ → ℝ} (hv : IsF g.d.total v y) {ix l : ℕ} (hx : ix < P.nx) (hl : l < P.nl) :
    gv (g.specP v) (ix * P.nl + l) = fin (power (P.nm - 1) (anaN A P.nlat P.nphi fun it ip => y (g.d.pos3 ix it ip)) l) := by
  have hw := h.setup.wf
  have hnl : g.d.nl = P.nl := by rw [h.setup.dims]
  have e1 : (ix * P.nl + l) / P.nl = ix := by rw [Nat.mul_comm, Nat.mul_add_div (by omega), Nat.div_eq_of_lt hl, Nat.add_zero]
  have e2 : (ix * P.nl + l) % P.nl = l := by rw [Nat.mul_comm, Nat.mul_add_mod, Nat.mod_eq_of_lt hl]
  have hlt : ix * P.nl + l < P.nx * P.nl := by
    calc ix * P.nl + l < ix * P.nl + P.nl := by omega
      _ = (ix + 1) * P.nl := by ring
      _ ≤ P.nx * P.nl := Nat.mul_le_mul_right _ hx
  unfold Grid.specP
  rw [gv_tab (by rw [hnl, h.nx]; exact hlt), hnl, e1, e2]
  have hs := shell_is2 hw.ok hv (ix := ix) (by rw [h.nx]; exact hx)
  rw [← hw.nlat, ← hw.nphi] at hs
  have hc := hs.coefs hw.sph h.math
  rw [hw.nlat, hw.nphi, h.nlat, h.nphi] at hc
  have hlm : g.sphere.lmax = P.nl := by rw [hw.lmax, hnl]
  have hmm : g.sphere.mmax = P.nm := by rw [hw.mmax, h.setup.dims]
  unfold Sphere.powP
  rw [gv_tab (by rw [hlm]; exact hl), powAcc_fin hw.sph hc (by omega) _ (by omega) (by omega), hmm]
  unfold power
  rw [show min (l + 1) P.nm - 1 = min l (P.nm - 1) by omega]

/-- the table of a finite field -/
theorem table_fin (h : Exact E P g q x A) {io : IOEnv CR} {v : List CR} {y : ℕ → ℝ} (hv : IsF g.d.total v y) {t : List (List Char)} (ht : IsTable io g v t) :
    t = valueTable io P.nx P.nl (radPt E.useCheb P.nx q.lo q.up) fun ix l =>
      shown (power (P.nm - 1) (anaN A P.nlat P.nphi fun it ip => y (g.d.pos3 ix it ip)) l) := by
  obtain ⟨S, R, h1, h2, h3⟩ := ht
  have hw := h.setup.wf
  have hnl : g.d.nl = P.nl := by rw [h.setup.dims]
  have hS : S = g.specP v := by
    obtain ⟨J⟩ : Nonempty (Junk (Cx CR)) := ⟨fun _ _ => default⟩
    have k1 := h1 J (List.replicate (g.d.nx * g.d.nl) default) (by simp)
    rw [hw.spectrum_eq J hv.1 (by simp)] at k1
    injection k1 with k1
    exact k1.symm
  have hR : ∀ ix, ix < P.nx → R ix = fin (radPt E.useCheb P.nx q.lo q.up ix) := by
    intro ix hx
    have p1 : 0 < P.nlat := by rw [← h.nlat]; exact hw.ok.nlat_pos
    have p2 : 0 < P.nphi := by rw [← h.nphi]; exact hw.ok.nphi_pos
    obtain ⟨θ, φ, k1⟩ := h2 ix 0 0 (by rw [h.nx]; exact hx) (by rw [h.nlat]; exact p1) (by rw [h.nphi]; exact p2)
    rw [h.setup.coords h.phys h.env hx p1 p2] at k1
    injection k1 with k1
    injection k1 with k1
    exact k1.symm
  rw [h3, h.nx, hnl]
  unfold valueTable
  congr 1
  refine List.flatMap_congr fun ix hix => ?_
  rw [List.mem_range] at hix
  refine List.map_congr_left fun l hl => ?_
  rw [List.mem_range] at hl
  beta_reduce
  rw [hR ix hix, hS, spec_fin h hv hix hl, logValue_shown]
  unfold specLine
  rw [show (dbl l : CR) = fin l from fin_dbl _]

theorem shown_pow_zero {mtop : ℕ} {c : ℕ → ℕ → ℂ} {l : ℕ} (h : ∀ m, m ≤ l → m ≤ mtop → c l m = 0) : shown (power mtop c l) = -16 := by
  have : power mtop c l = 0 := by
    unfold power
    rw [h 0 (Nat.zero_le _) (Nat.zero_le _), Finset.sum_eq_zero fun m hm => by
      rw [Finset.mem_Icc] at hm
      rw [h m (by omega) (by omega), map_zero]]
    simp
  rw [this, shown_zero]

/-- the harmonic of the initial data -/
theorem realY_shape (l m : ℕ) (θ φ : ℝ) : realY l m θ φ = shapeY l m (if m = 0 then 1 else 2) 0 θ φ := by
  unfold realY shapeY Ylm ThZ
  by_cases h : m = 0
  · subst h; simp
  · rw [if_neg h, if_neg h]
    simp only [Nat.cast_nonneg, if_true, Int.toNat_natCast, Int.cast_natCast]
    rw [show Complex.I * (m : ℂ) * (φ : ℂ) = ((m * φ : ℝ) : ℂ) * Complex.I by push_cast; ring, Complex.exp_mul_I, ← Complex.ofReal_cos, ← Complex.ofReal_sin]
    simp only [Complex.mul_re, Complex.mul_im, Complex.add_re, Complex.add_im, Complex.ofReal_re, Complex.ofReal_im, Complex.I_re, Complex.I_im]
    ring

/-- the initial state is one harmonic -/
theorem initial_harmonic (h : Exact E P g q x A) {amp rl ru : ℝ} {l m : ℕ} (hP : PulseParams P amp rl ru l m) {M : ℕ → Junk (Cx CR)}
    {F Q B C : ℕ → List CR} (hH : History P g M F Q B C) :
    ∃ y z : ℕ → ℝ, OneHarmonic g.d x l m (if m = 0 then 1 else 2) 0 y (F 0) ∧ OneHarmonic g.d x l m (if m = 0 then 1 else 2) 0 z (Q 0) := by
  have hS := h.setup.toBuiltGrid
  obtain ⟨J⟩ : Nonempty (Junk (Cx CR)) := ⟨fun _ _ => default⟩
  have hz : ∀ it ip, it < P.nlat → ip < P.nphi → ∀ s : ℝ, g.d.at3 (List.replicate (P.nx * P.nlat * P.nphi) (lit 0 : CR)) (P.nx - 1) it ip * fin s = fin 0 := by
    intro it ip b c s
    have hl := hS.wf.ok.idx3_lt (hS.inR (show P.nx - 1 < P.nx by have := hS.sizes.two.1; omega) b c)
    rw [hS.total] at hl
    unfold Dims.at3 gv
    rw [List.getElem?_replicate, if_pos hl]
    simp
  obtain ⟨f', p', s, D, k1, _, _, _, k5, k6, _⟩ := C54_initial_values hS h.phys h.env h.L0 hP J (f := List.replicate (P.nx * P.nlat * P.nphi) (lit 0))
    (p := List.replicate (P.nx * P.nlat * P.nphi) (lit 0)) (by simp) (by simp)
  rw [hH.start J] at k1
  injection k1 with k1
  injection k1 with e1 e2
  subst e1 e2
  have hlast : ∀ ix, ix < P.nx → ¬ ix + 1 < P.nx → ix = P.nx - 1 := fun ix a b => by omega
  refine ⟨fun ix => if ix + 1 < P.nx then s * pulse rl ru (codeR q.L (radPt E.useCheb P.nx q.lo q.up ix)) else 0,
    fun ix => if ix + 1 < P.nx then s * (dirSign P.direction * D (codeR q.L (radPt E.useCheb P.nx q.lo q.up ix))) else 0, ?_, ?_⟩
  · intro ix it ip a b c
    rw [h.nx] at a
    rw [h.nlat] at b
    rw [h.nphi] at c
    beta_reduce
    by_cases hc : ix + 1 < P.nx
    · rw [if_pos hc, (k5 ix it ip hc b c).1, realY_shape, fin_inj, h.nphi, mul_assoc]
    · rw [if_neg hc, hlast ix a hc, (k6 it ip b c).1, hz it ip b c, zero_mul]
  · intro ix it ip a b c
    rw [h.nx] at a
    rw [h.nlat] at b
    rw [h.nphi] at c
    beta_reduce
    by_cases hc : ix + 1 < P.nx
    · rw [if_pos hc, (k5 ix it ip hc b c).2, realY_shape, fin_inj, h.nphi]
      ring
    · rw [if_neg hc, hlast ix a hc, (k6 it ip b c).2, hz it ip b c, zero_mul]

/-- a history is an evolution -/
theorem History.run (h : Exact E P g q x A) {M : ℕ → Junk (Cx CR)} {F Q B C : ℕ → List CR} (hH : History P g M F Q B C) :
    ∃ (e : Eom CR) (f p : Field CR), Eom.Of g P e ∧ f.Sized (P.nx * P.nlat * P.nphi) ∧ p.Sized (P.nx * P.nlat * P.nphi) ∧ f.n = F 0 ∧ p.n = Q 0 ∧
      (∀ J k a F' Q', evolve g J e f p k = .ok (a, F', Q') → F'.n = F k ∧ Q'.n = Q k) ∧
      ∀ N, (∀ k ≤ N, AllFin (F k) ∧ AllFin (Q k)) → StaysFinite g e f p N := by
  obtain ⟨e, _, he⟩ := Eom.Of.exists h.setup
  obtain ⟨l1, l2⟩ := hH.len 0
  have hf : (⟨"f", F 0, F 0, F 0, F 0, P.nx * P.nlat * P.nphi⟩ : Field CR).Sized (P.nx * P.nlat * P.nphi) := ⟨l1, l1, l1, l1, rfl⟩
  have hp : (⟨"p", Q 0, Q 0, Q 0, Q 0, P.nx * P.nlat * P.nphi⟩ : Field CR).Sized (P.nx * P.nlat * P.nphi) := ⟨l2, l2, l2, l2, rfl⟩
  have key : ∀ J k a F' Q', evolve g J e ⟨"f", F 0, F 0, F 0, F 0, P.nx * P.nlat * P.nphi⟩ ⟨"p", Q 0, Q 0, Q 0, Q 0, P.nx * P.nlat * P.nphi⟩ k = .ok (a, F', Q') →
      F'.n = F k ∧ Q'.n = Q k := by
    intro J k a F' Q' hev
    obtain ⟨s, F1, Q1, a1, _, _, _, a5, a6⟩ := evolve_eq h.setup he J hf hp k
    rw [a1] at hev
    cases hev
    rw [a5, a6, (hH.evo h.setup he k).1, (hH.evo h.setup he k).2]
    exact ⟨rfl, rfl⟩
  refine ⟨e, _, _, he, hf, hp, rfl, rfl, key, fun N hfin j hj J e' f' p' hev => ?_⟩
  obtain ⟨c1, c2⟩ := key J j e' f' p' hev
  rw [c1, c2]
  exact hfin j hj

/-- the analysis of a single azimuthal harmonic -/
theorem anaN_oneOrder {nlat nphi : ℕ} {u : ℕ → ℕ → ℝ} {m : ℕ} (hu : ∀ it, it < nlat → ∃ a b : ℝ, ∀ ip, ip < nphi →
    u it ip = a * Real.cos (m * phiN nphi ip) + b * Real.sin (m * phiN nphi ip)) (l : ℕ) {m' : ℕ} (hne : m' ≠ m) (hlt : m + m' < nphi) :
    anaN A nlat nphi u l m' = 0 := by
  unfold anaN
  refine Finset.sum_eq_zero fun it hit => ?_
  rw [Finset.mem_range] at hit
  obtain ⟨a, b, hab⟩ := hu it hit
  have e1 := dft_orth (n := nphi) (by omega) (k := (m : ℤ) - m') (by omega)
  have e2 := dft_orth (n := nphi) (by omega) (k := -((m : ℤ) + m')) (by omega)
  rw [if_neg (by omega)] at e1
  rw [if_neg (by omega)] at e2
  rw [Finset.sum_congr rfl (g := fun ip => ((a : ℂ) - Complex.I * b) / 2 * Complex.exp (Complex.I * ((m : ℤ) - m' : ℤ) * phiN nphi ip)
    + ((a : ℂ) + Complex.I * b) / 2 * Complex.exp (Complex.I * (-((m : ℤ) + m') : ℤ) * phiN nphi ip)) fun ip hip => by
    rw [Finset.mem_range] at hip
    rw [hab ip hip]
    push_cast
    rw [show Complex.I * ((m : ℂ) - m') * phiN nphi ip = (m * phiN nphi ip) * Complex.I + -(Complex.I * m' * phiN nphi ip) by ring,
      show Complex.I * -((m : ℂ) + m') * phiN nphi ip = (-(m * phiN nphi ip)) * Complex.I + -(Complex.I * m' * phiN nphi ip) by ring,
      Complex.exp_add, Complex.exp_add, Complex.exp_mul_I, Complex.exp_mul_I, Complex.cos_neg, Complex.sin_neg]
    linear_combination ((b : ℂ) * Complex.sin (m * phiN nphi ip) * Complex.exp (-(Complex.I * m' * phiN nphi ip))) * Complex.I_sq]
  rw [Finset.sum_add_distrib, ← Finset.mul_sum, ← Finset.mul_sum, e1, e2]
  simp

end SFK
