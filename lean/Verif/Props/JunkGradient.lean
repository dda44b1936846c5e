import Verif.Props.Uninit
import Verif.Lemmas.LinSphere
import Mathlib.Tactic.SplitIfs
/-
C26, the case in which `lower` reads memory nobody wrote: what the squared angular gradient then is, in terms of that memory.
-/
namespace SFK
open Scalar CR

variable {s : Sphere CR} {contig : Bool} {x : ℕ → ℝ} {A : ℕ → ℕ → ℕ → ℝ}

theorem loweredG_high {L M l : ℕ} {m : ℤ} {c : ℕ → ℤ → ℂ} (hz : ∀ l m, M < l → l ≤ L → c l m = 0) (hl : M < l) (hL : l ≤ L)
    (hn : (nextC M l m).1 ≤ L) : loweredG L M c l m = 0 := by
  unfold loweredG
  have hn' : M < (nextC M l m).1 := by unfold nextC; split_ifs <;> simp <;> omega
  rw [hz _ _ hl hL, hz _ _ hn' hn]
  simp

theorem lowered_high {L M l : ℕ} {m : ℤ} {c : ℕ → ℤ → ℂ} (hz : ∀ l m, M < l → l ≤ L → c l m = 0) (hl : M < l) (hL : l ≤ L) :
    lowered L c l m = 0 := by
  unfold lowered
  rw [hz _ _ hl hL, hz _ _ hl hL]
  simp

/-- the last coefficient the library stores -/
theorem pidx_last (h : s.Wf) {l : ℕ} {m : ℤ} (hr : s.sht.ResC l m) :
    (pidx s.mmax l m).toNat + 1 = s.sht.ncp ↔ l = s.lmax ∧ m = s.mmax := by
  have hmm := h.api.mmax_eq
  have hll := h.api.lmax_eq
  have hle := h.api.mmax_le
  have hr' : s.sht.ResC s.lmax (s.mmax : ℤ) := ⟨by omega, by simp; omega, by simp [hmm]⟩
  have hp : (pidx s.mmax s.lmax (s.mmax : ℤ)).toNat + 1 = s.sht.ncp := by
    rw [Shtns.ncp_prow hle, hmm, hll, prow]
    have := pidx_toNat s.mmax s.lmax (2 * s.mmax)
    rw [Nat.min_eq_right (by omega)] at this ⊢
    rw [show ((2 * s.mmax : ℕ) : ℤ) - (s.mmax : ℤ) = s.mmax by push_cast; ring] at this
    omega
  constructor
  · intro he
    have e : (pidx s.sht.mmax l m).toNat = (pidx s.sht.mmax s.lmax (s.mmax : ℤ)).toNat := by rw [hmm]; omega
    exact Shtns.pidx_inj hr hr' e
  · rintro ⟨rfl, rfl⟩
    exact hp

/-- what `lower` adds to the field when the first entry nobody wrote is `z` -/
theorem lower_junk_field (h : s.Wf) (hm : s.sht.Math contig s.nlat s.nphi x A) (hn : s.sht.ncp < s.lmax ^ 2) (hsq : ¬ IsSquare s.sht.ncp)
    {J : Junk (Cx CR)} {z : ℂ} (hJ : J [1] s.sht.ncp = toCx z) {v : List CR} {c : ℕ → ℤ → ℂ} (hr : s.sht.RepC (v.map Cx.ofRe) c)
    (hz : ∀ l m, s.mmax < l → l ≤ s.lmax → c l m = 0) :
    SamplesC contig s.nlat s.nphi x (s.lowJ J v)
      (fun θ φ => fieldC s.lmax (lowered s.lmax c) θ φ + junkFactor s.sht.ncp * z * Ylm s.lmax s.mmax θ φ) := by
  have hmm := h.api.mmax_eq
  have hll := h.api.lmax_eq
  have hle := h.api.mmax_le
  have hM : s.mmax < s.lmax := by
    by_contra hge
    have := h.dense (by omega)
    omega
  obtain ⟨c', a1, a2, a3⟩ := lowerP_last' h hn hsq ((hm.roundTrip h.api).cplx _ _ hr) hJ
  have hrep : s.sht.RepC (s.lowJ J v) c' := ⟨_, a1, rfl⟩
  have hS := repC_samples h hm hrep
  refine ⟨hS.1, fun it ip h1 h2 => ?_⟩
  rw [hS.2 it ip h1 h2]
  beta_reduce
  rw [← fieldC_single (L := s.lmax) (l0 := s.lmax) (m0 := (s.mmax : ℤ)) (Nat.le_refl _) (by simp; omega), ← fieldC_add]
  congr 1
  refine fieldC_congr (fun l m hl b1 b2 => ?_) _ _
  unfold cutC
  by_cases hmM : |m| ≤ (s.mmax : ℤ)
  · have hres : s.sht.ResC l m := ⟨by omega, abs_le.mpr ⟨b1, b2⟩, by rw [hmm]; exact hmM⟩
    rw [if_pos hmM]
    by_cases hlast : l = s.lmax ∧ m = s.mmax
    · rw [if_pos hlast, a3 l m hres ((pidx_last h hres).mpr hlast), lowered_high hz (by omega) hl, zero_add]
    · have hlt := hres.lt hle
      rw [hmm] at hlt
      have hne : (pidx s.mmax l m).toNat + 1 ≠ s.sht.ncp := fun e => hlast ((pidx_last h hres).mp e)
      rw [if_neg hlast, add_zero, a2 l m hres (by omega)]
      by_cases hlM : l ≤ s.mmax
      · exact (ladderG_low hlM (abs_le.mpr ⟨b1, b2⟩) c).2
      · have hnx := (nextC_spec hle hres (by rw [hmm]; omega)).1.1
        rw [hmm, hll] at hnx
        rw [loweredG_high hz (by omega) hl hnx, lowered_high hz (by omega) hl]
  · rw [if_neg hmM]
    rw [abs_le] at hmM
    rw [if_neg (by omega), lowered_high hz (by omega) hl, add_zero]

/-- **C26**, what happens with too few orders: on a field without content in the degrees whose orders are truncated and in the top degree,
`sphereX` is the squared gradient plus a term proportional to the real part of the first entry nobody wrote times a fixed field. -/
theorem C26_garbage_term (h : s.Wf) (hm : s.sht.Math contig s.nlat s.nphi x A) (hn : s.sht.ncp < s.lmax ^ 2) (hsq : ¬ IsSquare s.sht.ncp)
    {J : Junk (Cx CR)} {z : ℂ} (hJ : J [1, 1] s.sht.ncp = toCx z) {v out : List CR} {c : ℕ → ℕ → ℂ} (hc : ∀ l, l ≤ s.lmax → (c l 0).im = 0)
    (hb : Resolved s c) (ht : c s.mmax s.mmax = 0) (hv : Samples contig s.nlat s.nphi x v (fieldR s.lmax s.mmax c)) (ho : out.length = s.nSph) :
    ∃ w, s.sphereX J v out = .ok w ∧ Samples contig s.nlat s.nphi x w fun θ φ =>
      gradSq (fieldR s.lmax s.mmax c) θ φ - (Complex.exp (Complex.I * φ) * (dTh (fieldR s.lmax s.mmax c) θ φ
        + Complex.I * ((Real.cos θ / Real.sin θ : ℝ) : ℂ) * dPh (fieldR s.lmax s.mmax c) θ φ)
          * (junkFactor s.sht.ncp * z * Ylm s.lmax s.mmax θ φ)).re := by
  have hrep := samples_rep h hm hc hv
  have hemb := hm.emb h.api hrep
  rw [h.api.mmax_eq] at hemb
  have hvl := Rep.len h hrep
  have hq := (hm.roundTrip h.api).cplx _ _ hemb
  have hz : ∀ (l : ℕ) (m : ℤ), s.mmax < l → l ≤ s.lmax → extC s.mmax c l m = 0 := by
    intro l m a b
    exact extC_zero' (by omega) (fun m h1 => hb l m (by omega) (Or.inl a) b) m
  have r1 : s.sht.RepC (s.ladP s.raiseP v) (raisedG s.lmax s.mmax (extC s.mmax c)) := ⟨_, raiseP_coefs h hq, rfl⟩
  have r3 := phiP_rep h (hm.roundTrip h.api) hrep
  have hlow := lower_junk_field h hm hn hsq (J := J.sub 1) hJ hemb hz
  refine ⟨_, h.sphereX_junk_eq J hvl ho, by simp [Sphere.sphXJ, h.nSph'], fun it ip a b => ?_⟩
  have hsin : Real.sin (Real.arccos (x it)) ≠ 0 := by
    rw [Real.sin_arccos]
    have := hm.inside it a
    have : 0 < 1 - x it ^ 2 := by nlinarith [this.1, this.2]
    exact (Real.sqrt_pos.mpr this).ne'
  unfold Sphere.sphXJ
  rw [gv_tab (by rw [h.nSph']; exact spos_lt a b), (repC_samples h hm r1).2 it ip a b, hlow.2 it ip a b, (rep_samples h hm r3).2 it ip a b]
  have htop := extC_top (L := s.lmax) (M := s.mmax) (c := c) (fun m a _ => hb s.lmax m a (Or.inr rfl) (Nat.le_refl _))
  have eraise : ∀ θ φ, fieldC s.lmax (cutC s.mmax (raisedG s.lmax s.mmax (extC s.mmax c))) θ φ = fieldC s.lmax (upC (extC s.mmax c)) θ φ := by
    intro θ φ
    refine fieldC_congr (fun l m hl b1 b2 => ?_) _ _
    rw [← raised_eq htop hl b1 b2]
    unfold cutC
    by_cases hmM : |m| ≤ (s.mmax : ℤ)
    · rw [if_pos hmM, raisedG_resolved hl (abs_le.mpr ⟨b1, b2⟩) hmM hz]
    · rw [if_neg hmM]
      rw [abs_le] at hmM
      unfold raised
      rw [hz _ _ (by omega) hl, hz _ _ (by omega) hl]
      simp
  rw [eraise]
  beta_reduce
  rw [fieldC_congr (c := lowered s.lmax (extC s.mmax c)) (c' := downC (extC s.mmax c)) (fun l m a b d => lowered_eq htop a b d),
    fieldR_congr (c' := fun l m => Complex.I * m * c l m) (by
      intro l m a b d
      split_ifs with hlt
      · rfl
      · have z : c l m = 0 := by
          by_cases e : m = s.mmax ∧ l = s.mmax
          · rw [e.1, e.2, ht]
          · exact hb l m b (by omega) a
        rw [z, mul_zero])]
  have key := congrArg Complex.re (ladder_gradSq s.lmax s.mmax c (phiN s.nphi ip) hsin)
  have hup := fieldC_raise s.lmax (extC s.mmax c) (phiN s.nphi ip) hsin
  have hph : fieldC s.lmax (fun l m => Complex.I * m * extC s.mmax c l m) (Real.arccos (x it)) (phiN s.nphi ip)
      = (dPh (fieldR s.lmax s.mmax c) (Real.arccos (x it)) (phiN s.nphi ip) : ℂ) := by
    rw [dPh_fieldR, fieldR_eq]; congr 1; funext l m; exact extC_phi _ c l m
  rw [hph, ← (fieldR_dTh s.lmax s.mmax c _ hsin).2] at hup
  rw [← hup]
  rw [Complex.ofReal_re] at key
  rw [← key, Complex.add_re, Complex.neg_re, ← Complex.ofReal_pow, Complex.ofReal_re]
  generalize fieldC s.lmax (upC (extC s.mmax c)) (Real.arccos (x it)) (phiN s.nphi ip) = U
  generalize fieldC s.lmax (downC (extC s.mmax c)) (Real.arccos (x it)) (phiN s.nphi ip) = D
  generalize (↑(junkFactor s.sht.ncp) * z * Ylm s.lmax s.mmax (Real.arccos (x it)) (phiN s.nphi ip)) = Z
  simp only [toCx, Cx.mul, fin_mul, fin_sub, fin_neg, fin_pown, fin_add]
  congr 1
  simp only [Complex.mul_re, Complex.add_re, Complex.add_im]
  ring

end SFK
