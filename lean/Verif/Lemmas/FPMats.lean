import Verif.Lemmas.FPLib
/-
Libraries that meet their documentation in exact arithmetic multiply by matrices.
-/
namespace SFK
open Scalar CR

/-- a linear functional of a sequence of numbers -/
def LinFun (Λ : (ℕ → ℝ) → ℝ) : Prop := ∀ a b u w, Λ (fun j => a * u j + b * w j) = a * Λ u + b * Λ w

theorem LinFun.zero {Λ : (ℕ → ℝ) → ℝ} (h : LinFun Λ) : Λ (fun _ => 0) = 0 := by
  have := h 0 0 (fun _ => 0) fun _ => 0
  simpa using this

theorem LinFun.sum {Λ : (ℕ → ℝ) → ℝ} (h : LinFun Λ) (u : ℕ → ℝ) (n : ℕ) :
    Λ (fun k => if k < n then u k else 0) = ∑ j ∈ Finset.range n, Λ (fun k => if k = j then 1 else 0) * u j := by
  induction n with
  | zero => simpa using h.zero
  | succ n ih =>
    rw [Finset.sum_range_succ, ← ih]
    have e : (fun k => if k < n + 1 then u k else 0) = fun k => 1 * (if k < n then u k else 0) + u n * (if k = n then 1 else 0) := by
      funext k
      rcases lt_trichotomy k n with hk | hk | hk
      · rw [if_pos (by omega), if_pos hk, if_neg (by omega)]; ring
      · subst hk; simp
      · rw [if_neg (by omega), if_neg (by omega), if_neg (by omega)]; ring
    rw [e, h]
    ring

theorem isMat_of {X Y : Type} {n m : ℕ} {inp : X → List CR} {out : Y → List CR} {F : X → Y}
    (hl : ∀ V, (inp V).length = n → (out (F V)).length = m)
    (h : ∀ i, i < m → ∃ Λ, LinFun Λ ∧ ∀ V u, ExactVals n (inp V) u → gv (out (F V)) i = fin (Λ u)) : ∃ A, IsMat n m inp out F A := by
  have h' : ∀ i, ∃ Λ, i < m → LinFun Λ ∧ ∀ V u, ExactVals n (inp V) u → gv (out (F V)) i = fin (Λ u) := by
    intro i
    by_cases hi : i < m
    · obtain ⟨Λ, hΛ⟩ := h i hi
      exact ⟨Λ, fun _ => hΛ⟩
    · exact ⟨fun _ => 0, fun hh => absurd hh hi⟩
  choose Λ hΛ using h'
  refine ⟨fun i j => Λ i fun k => if k = j then 1 else 0, fun V u hu => ⟨hl V hu.1, fun i hi => ?_⟩⟩
  beta_reduce
  rw [← (hΛ i hi).1.sum]
  exact (hΛ i hi).2 V _ ⟨hu.1, fun k hk => by beta_reduce; rw [if_pos hk]; exact hu.2 k hk⟩

/-- complex entry of a flat array -/
noncomputable def zc (u : ℕ → ℝ) (k : ℕ) : ℂ := ⟨u (2 * k), u (2 * k + 1)⟩

theorem zc_comb (a b : ℝ) (u w : ℕ → ℝ) (k : ℕ) : zc (fun j => a * u j + b * w j) k = a * zc u k + b * zc w k := by
  apply Complex.ext <;> simp [zc]

theorem exact_flat {n : ℕ} {V : List (Cx CR)} {u : ℕ → ℝ} (h : ExactVals (2 * n) (flat V) u) :
    V.length = n ∧ ∀ k, k < n → gv V k = toCx (zc u k) := by
  obtain ⟨h1, h2⟩ := h
  rw [flat_length] at h1
  refine ⟨by omega, fun k hk => ?_⟩
  have a := h2 (2 * k) (by omega)
  have b := h2 (2 * k + 1) (by omega)
  rw [(gv_flat V k).1] at a
  rw [(gv_flat V k).2] at b
  have : gv V k = ⟨(gv V k).re, (gv V k).im⟩ := rfl
  rw [this, a, b]
  rfl

/-- entries of a complex output: real and imaginary parts -/
theorem isMat_ofC {X : Type} {n m : ℕ} {inp : X → List CR} {F : X → List (Cx CR)}
    (hl : ∀ V, (inp V).length = n → (F V).length = m)
    (h : ∀ k, k < m → ∃ Λ : (ℕ → ℝ) → ℂ, (∀ a b u w, Λ (fun j => a * u j + b * w j) = a * Λ u + b * Λ w) ∧
      ∀ V u, ExactVals n (inp V) u → gv (F V) k = toCx (Λ u)) : ∃ A, IsMat n (2 * m) inp flat F A := by
  refine isMat_of (fun V hV => by rw [flat_length, hl V hV]) fun i hi => ?_
  obtain ⟨j, hj | hj⟩ := Nat.even_or_odd' i
  · subst hj
    obtain ⟨Λ, h1, h2⟩ := h j (by omega)
    refine ⟨fun u => (Λ u).re, fun a b u w => by beta_reduce; rw [h1]; simp, fun V u hu => ?_⟩
    rw [(gv_flat _ j).1, h2 V u hu]
    rfl
  · subst hj
    obtain ⟨Λ, h1, h2⟩ := h j (by omega)
    refine ⟨fun u => (Λ u).im, fun a b u w => by beta_reduce; rw [h1]; simp, fun V u hu => ?_⟩
    rw [(gv_flat _ j).2, h2 V u hu]
    rfl

section sht
variable {s : Shtns CR} {contig : Bool} {nl nm nlat nphi : ℕ} {x : ℕ → ℝ} {A : ℕ → ℕ → ℕ → ℝ}

theorem ana_mat (ha : s.Api nl nm nlat nphi) (hm : s.Math contig nlat nphi x A) :
    ∃ B, IsMat (nlat * nphi) (2 * nlmOf nl nm) id flat s.spatToSH B := by
  refine isMat_ofC (fun V hV => by rw [ha.len_spatToSH V (Eq.trans hV ha.nspat_eq.symm), ha.nlm_eq]; rfl) fun k hk => ?_
  obtain ⟨a, b, hr, rfl⟩ := ha.LM_surj (k := k) (by rw [ha.nlm_eq]; exact hk)
  refine ⟨fun u => anaN A nlat nphi (fun it ip => u (spos contig nlat nphi it ip)) a b, fun c d u w => anaN_comb c d _ _ a b, fun V u hu => ?_⟩
  exact hm.ana V (fun it ip => u (spos contig nlat nphi it ip)) (hu.1.trans ha.nspat_eq.symm) (fun it ip h1 h2 => hu.2 _ (spos_lt h1 h2)) a b hr

theorem syn_mat (ha : s.Api nl nm nlat nphi) (hm : s.Math contig nlat nphi x A) :
    ∃ B, IsMat (2 * nlmOf nl nm) (nlat * nphi) flat id s.shToSpat B := by
  refine isMat_of (fun V hV => ?_) fun k hk => ?_
  · rw [flat_length] at hV
    exact (ha.len_shToSpat _ (by rw [ha.nlm_eq]; unfold nlmOf at hV; omega)).trans ha.nspat_eq
  · obtain ⟨it, ip, h1, h2, rfl⟩ := spos_surj (contig := contig) hk
    refine ⟨fun u => fieldR s.lmax s.mmax (fun a b => zc u (s.LM a b)) (Real.arccos (x it)) (phiN nphi ip), fun c d u w => ?_, fun V u hu => ?_⟩
    · rw [← fieldR_comb]
      simp only [zc_comb]
    · obtain ⟨e1, e2⟩ := exact_flat hu
      refine hm.syn V (fun a b => zc u (s.LM a b)) ⟨by rw [e1, ha.nlm_eq]; rfl, fun a b hr => ?_⟩ it ip h1 h2
      exact e2 _ (by have := ha.LM_lt hr; rw [ha.nlm_eq] at this; exact this)

theorem anaC_mat (ha : s.Api nl nm nlat nphi) (hm : s.Math contig nlat nphi x A) :
    ∃ B, IsMat (2 * (nlat * nphi)) (2 * ncpOf nl nm) flat flat s.spatToSHC B := by
  have hnc : s.ncp = ncpOf nl nm := by unfold Shtns.ncp ncpOf; rw [ha.lmax_eq, ha.mmax_eq]
  have hmm : s.mmax ≤ s.lmax := by rw [ha.lmax_eq, ha.mmax_eq]; exact ha.m_le
  refine isMat_ofC (fun V hV => ?_) fun k hk => ?_
  · rw [flat_length] at hV
    rw [ha.len_spatToSHC _ (by rw [ha.nspat_eq]; omega), hnc]
  · rw [← hnc] at hk
    obtain ⟨a, b, hr, rfl⟩ := Shtns.pidx_surj hmm hk
    refine ⟨fun u => ∑ it ∈ Finset.range nlat, (wtZ A a b it : ℂ)
          * ∑ ip ∈ Finset.range nphi, zc u (spos contig nlat nphi it ip) * Complex.exp (-(Complex.I * b * phiN nphi ip)), fun c d u w => ?_, fun V u hu => ?_⟩
    · rw [Finset.mul_sum, Finset.mul_sum, ← Finset.sum_add_distrib]
      refine Finset.sum_congr rfl fun it _ => ?_
      rw [Finset.mul_sum, Finset.mul_sum, Finset.mul_sum, Finset.mul_sum, Finset.mul_sum, ← Finset.sum_add_distrib]
      refine Finset.sum_congr rfl fun ip _ => ?_
      rw [zc_comb]
      ring
    · obtain ⟨e1, e2⟩ := exact_flat hu
      exact hm.anaC V (fun it ip => zc u (spos contig nlat nphi it ip)) (e1.trans ha.nspat_eq.symm)
        (fun it ip k1 k2 => e2 _ (spos_lt k1 k2)) a b hr

theorem synC_mat (ha : s.Api nl nm nlat nphi) (hm : s.Math contig nlat nphi x A) :
    ∃ B, IsMat (2 * ncpOf nl nm) (2 * (nlat * nphi)) flat flat s.shToSpatC B := by
  have hnc : s.ncp = ncpOf nl nm := by unfold Shtns.ncp ncpOf; rw [ha.lmax_eq, ha.mmax_eq]
  have hmm : s.mmax ≤ s.lmax := by rw [ha.lmax_eq, ha.mmax_eq]; exact ha.m_le
  refine isMat_ofC (fun V hV => ?_) fun k hk => ?_
  · rw [flat_length] at hV
    rw [ha.len_shToSpatC _ (by rw [hnc]; omega), ha.nspat_eq]
  · obtain ⟨it, ip, h1, h2, rfl⟩ := spos_surj (contig := contig) hk
    refine ⟨fun u => fieldC s.lmax (cutC s.mmax fun a b => zc u (pidx s.mmax a b).toNat) (Real.arccos (x it)) (phiN nphi ip), fun c d u w => ?_,
      fun V u hu => ?_⟩
    · have e : (cutC s.mmax fun a b => zc (fun j => (c : ℝ) * u j + d * w j) (pidx s.mmax a b).toNat) = fun l m =>
          c * cutC s.mmax (fun a b => zc u (pidx s.mmax a b).toNat) l m + d * cutC s.mmax (fun a b => zc w (pidx s.mmax a b).toNat) l m := by
        funext a b
        unfold cutC
        beta_reduce
        rw [zc_comb]
        by_cases hb : |b| ≤ (s.mmax : ℤ)
        · simp only [if_pos hb]
        · simp only [if_neg hb, mul_zero, add_zero]
      beta_reduce
      rw [e, fieldC_comb]
    · obtain ⟨e1, e2⟩ := exact_flat hu
      exact hm.synC V (fun a b => zc u (pidx s.mmax a b).toNat) ⟨by rw [e1, hnc], fun a b hr => e2 _ (by rw [← hnc]; exact hr.lt hmm)⟩ it ip h1 h2

end sht

theorem dct_mat {n : ℕ} {dct : List CR → List CR} (h : FftwOk n dct) : ∃ B, IsMat n n id id dct B := by
  refine isMat_of (fun V hV => h.len V hV) fun k hk => ⟨fun u => redft00 (n - 1) u k, fun a b u w => redft00_comb _ a b u w k, fun V u hu => ?_⟩
  have : V = tab n fun i => fin (u i) := eq_tab hu.1 hu.2
  show gv (dct V) k = _
  rw [this, h.val, gv_tab hk]

/-- Libraries that meet their documentation multiply by matrices. -/
theorem Env.Exact.mats {E : Env CR} {nx nl nm nlat nphi : ℕ} {x : ℕ → ℝ} {A : ℕ → ℕ → ℕ → ℝ} (h : E.Exact nx nl nm nlat nphi x A) :
    ∃ M, E.Mats nx nl nm nlat nphi M := by
  obtain ⟨B1, h1⟩ := ana_mat h.sized.api h.math
  obtain ⟨B2, h2⟩ := syn_mat h.sized.api h.math
  obtain ⟨B3, h3⟩ := anaC_mat h.sized.api h.math
  obtain ⟨B4, h4⟩ := synC_mat h.sized.api h.math
  obtain ⟨B5, h5⟩ := dct_mat h.fftw
  exact ⟨⟨B1, B2, B3, B4, B5⟩, h1, h2, h3, h4, fun _ => h5, fun it hit => ⟨x it, h.math.ct it hit, h.math.inside it hit⟩⟩

end SFK
