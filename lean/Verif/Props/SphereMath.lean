import Verif.Props.Sphere
import Verif.Lemmas.SphereInstance
/-
C22-C29 in terms of functions on the sphere: the discrete operators against the true derivatives.
-/
namespace SFK
open Scalar CR

variable {s : Sphere CR} {contig : Bool} {x : ℕ → ℝ} {A : ℕ → ℕ → ℕ → ℝ}

/-- the hypotheses of this file can be met: for all sizes with `nm≤nl<nlat`, `2*nm<nphi` -/
theorem exists_sphere (contig nd : Bool) {L M nlat nphi : ℕ} (hM : M ≤ L) (hL : L < nlat) (hp : 2 * M < nphi)
    (h31 : L < 2 ^ 31) :
    ∃ (s : Sphere CR) (x : ℕ → ℝ) (A : ℕ → ℕ → ℕ → ℝ), s.Wf ∧ s.sht.Math contig s.nlat s.nphi x A ∧
      s.lmax = L ∧ s.mmax = M ∧ s.nlat = nlat ∧ s.nphi = nphi ∧ s.ndebug = nd := by
  obtain ⟨t, x, A, h1, h2⟩ := exists_shtns contig hM hL hp
  obtain ⟨s, _, hw, a, b, c, d, e, f⟩ := Sphere.mk'_wf (nd := nd) h1 rfl h31
  subst e
  exact ⟨s, x, A, hw, by rw [c, d]; exact h2, a, b, c, d, f⟩

theorem samples_rep (h : s.Wf) (hm : s.sht.Math contig s.nlat s.nphi x A) {v : List CR} {c : ℕ → ℕ → ℂ}
    (hc : ∀ l, l ≤ s.lmax → (c l 0).im = 0) (hv : Samples contig s.nlat s.nphi x v (fieldR s.lmax s.mmax c)) :
    s.sht.Rep v c := by
  refine ⟨by rw [h.api.lmax_eq]; exact hc, s.sht.mkLM fun l m => toCx (c l m),
    ⟨by simp, fun _ _ hr => h.api.cf_mkLM hr⟩, ?_⟩
  have hq : s.sht.IsCoefs (s.sht.mkLM fun l m => toCx (c l m)) c := ⟨by simp, fun _ _ hr => h.api.cf_mkLM hr⟩
  have hl := h.api.len_shToSpat _ hq.1
  apply list_ext_gv (by rw [hv.1, hl, h.api.nspat_eq])
  intro k hk
  rw [hv.1] at hk
  obtain ⟨it, ip, h1, h2, rfl⟩ := spos_surj (contig := contig) hk
  rw [hv.2 it ip h1 h2, hm.syn _ _ hq it ip h1 h2, h.api.lmax_eq, h.api.mmax_eq]

theorem rep_samples (h : s.Wf) (hm : s.sht.Math contig s.nlat s.nphi x A) {v : List CR} {c : ℕ → ℕ → ℂ}
    (hr : s.sht.Rep v c) : Samples contig s.nlat s.nphi x v (fieldR s.lmax s.mmax c) := by
  obtain ⟨_, q, hq, rfl⟩ := hr
  refine ⟨by rw [h.api.len_shToSpat _ hq.1, h.api.nspat_eq], fun it ip h1 h2 => ?_⟩
  rw [hm.syn _ _ hq it ip h1 h2, h.api.lmax_eq, h.api.mmax_eq]

theorem repC_samples (h : s.Wf) (hm : s.sht.Math contig s.nlat s.nphi x A)
    {v : List (Cx CR)} {c : ℕ → ℤ → ℂ} (hr : s.sht.RepC v c) :
    SamplesC contig s.nlat s.nphi x v (fieldC s.lmax (cutC s.mmax c)) := by
  obtain ⟨q, hq, rfl⟩ := hr
  refine ⟨by rw [h.api.len_shToSpatC _ hq.1, h.api.nspat_eq], fun it ip h1 h2 => ?_⟩
  rw [hm.synC _ _ hq it ip h1 h2, h.api.lmax_eq, h.api.mmax_eq]

/-- the fields on which the ladder operators of the code find the coefficients where they look for them: every field when all orders, or all but the
highest one, are kept; otherwise those without content in the degrees whose orders are truncated -/
def Ladders (s : Sphere CR) (c : ℕ → ℕ → ℂ) : Prop :=
  s.lmax ≤ s.mmax + 1 ∨ (s.lmax ^ 2 ≤ s.sht.ncp ∧ ∀ l m, m ≤ l → s.mmax < l → l ≤ s.lmax → c l m = 0)

theorem Ladders.dense (h : s.Wf) {c : ℕ → ℕ → ℂ} (hf : Ladders s c) : s.lmax ^ 2 ≤ s.sht.ncp := by
  rcases hf with hf | hf
  · exact h.dense hf
  · exact hf.1

theorem extC_zero_deg {M l : ℕ} {c : ℕ → ℕ → ℂ} (h0 : ∀ m, m ≤ l → c l m = 0) {m : ℤ} (hm : |m| ≤ (l : ℤ)) : extC M c l m = 0 := by
  rw [abs_le] at hm
  unfold extC
  split_ifs with a b d
  · rw [h0 0 (by omega)]; simp
  · exact h0 _ (by omega)
  · rw [h0 _ (by omega)]; simp
  · rfl

theorem extC_zero' {M l : ℕ} (hl : M < l) {c : ℕ → ℕ → ℂ} (h0 : ∀ m, m ≤ l → c l m = 0) (m : ℤ) : extC M c l m = 0 := by
  by_cases h : |m| ≤ (l : ℤ)
  · exact extC_zero_deg h0 h
  · unfold extC
    rw [if_neg]
    intro h1
    apply h
    rw [abs_le]; omega

theorem extC_cut {M l : ℕ} {c : ℕ → ℕ → ℂ} {m : ℤ} (hm : ¬ |m| ≤ (M : ℤ)) : extC M c l m = 0 := by
  rw [abs_le] at hm
  unfold extC
  split_ifs with a b d
  · omega
  · omega
  · omega
  · rfl


/-- on these fields `raise` and `lower` act as on the untruncated coefficients -/
theorem ladder_field (h : s.Wf) {c : ℕ → ℕ → ℂ} (hf : Ladders s c) (θ φ : ℝ) :
    fieldC s.lmax (cutC s.mmax (raisedG s.lmax s.mmax (extC s.mmax c))) θ φ = fieldC s.lmax (raised s.lmax (extC s.mmax c)) θ φ ∧
    fieldC s.lmax (cutC s.mmax (loweredG s.lmax s.mmax (extC s.mmax c))) θ φ = fieldC s.lmax (lowered s.lmax (extC s.mmax c)) θ φ := by
  have key : ∀ l m, l ≤ s.lmax → -(l : ℤ) ≤ m → m ≤ l →
      cutC s.mmax (raisedG s.lmax s.mmax (extC s.mmax c)) l m = raised s.lmax (extC s.mmax c) l m ∧
      cutC s.mmax (loweredG s.lmax s.mmax (extC s.mmax c)) l m = lowered s.lmax (extC s.mmax c) l m := by
    intro l m hl h1 h2
    have ha : |m| ≤ (l : ℤ) := abs_le.mpr ⟨h1, h2⟩
    unfold cutC
    by_cases hc : |m| ≤ (s.mmax : ℤ)
    · rw [if_pos hc, if_pos hc]
      rcases hf with hf | ⟨hd, hz⟩
      · exact ladderG_eq hf hl ha hc _
      · refine ladderG_resolved hl ha hc ?_ fun l m h3 h4 => extC_zero' h3 (fun m h5 => hz l m h5 h3 h4) m
        rw [← h.api.mmax_eq, ← h.api.lmax_eq, ← Shtns.ncp_prow h.api.mmax_le, h.api.lmax_eq, ← pow_two]; exact hd
    · rw [if_neg hc, if_neg hc]
      have hlt : s.mmax < l := by rw [abs_le] at hc; omega
      rcases hf with hf | ⟨hd, hz⟩
      · have : ¬ l < s.lmax := by omega
        unfold raised lowered
        rw [if_neg this, if_neg this, extC_cut hc]; exact ⟨rfl, rfl⟩
      · have z : ∀ m, extC s.mmax c l m = 0 := fun m => extC_zero' hlt (fun m h5 => hz l m h5 hlt hl) m
        unfold raised lowered
        rw [z, z, z]; simp
  exact ⟨fieldC_congr (fun l m a b d => (key l m a b d).1) θ φ, fieldC_congr (fun l m a b d => (key l m a b d).2) θ φ⟩

theorem Samples.congr {nlat nphi : ℕ} {v : List CR} {f g : ℝ → ℝ → ℝ} (h : Samples contig nlat nphi x v f)
    (hx : ∀ it, it < nlat → -1 < x it ∧ x it < 1)
    (he : ∀ θ φ, Real.sin θ ≠ 0 → f θ φ = g θ φ) : Samples contig nlat nphi x v g := by
  refine ⟨h.1, fun it ip h1 h2 => ?_⟩
  rw [h.2 it ip h1 h2, he]
  rw [Real.sin_arccos]
  have := hx it h1
  have : 0 < 1 - x it ^ 2 := by nlinarith [this.1, this.2]
  exact (Real.sqrt_pos.mpr this).ne'

/-- no content in the top degree and the top order -/
def Below (s : Sphere CR) (c : ℕ → ℕ → ℂ) : Prop := ∀ l m, m ≤ l → l ≤ s.lmax → m ≤ s.mmax →
  (l = s.lmax ∨ m = s.mmax) → c l m = 0

theorem Below.band (h : s.Wf) {c : ℕ → ℕ → ℂ} (hb : Below s c) :
    ∀ l m, s.sht.Res l m → (l = s.lmax ∨ m = s.mmax) → c l m = 0 := by
  intro l m hr ho
  have := hr
  rw [Shtns.Res, h.api.lmax_eq, h.api.mmax_eq] at this
  exact hb l m this.1 this.2.1 this.2.2 ho

/-- C23, analytic form, partial (fields without content in `l=nl`, `m=nm`): the output of `laplace_beltrami` is the
Laplacian of the unit sphere of the input field, at every grid point. -/
theorem C23_true_laplacian_partial (h : s.Wf) (hm : s.sht.Math contig s.nlat s.nphi x A) (J : Junk (Cx CR))
    {v out : List CR} {c : ℕ → ℕ → ℂ} (hc : ∀ l, l ≤ s.lmax → (c l 0).im = 0) (hb : Below s c)
    (hv : Samples contig s.nlat s.nphi x v (fieldR s.lmax s.mmax c)) (ho : out.length = s.nSph) :
    ∃ w, s.laplace_beltrami J v out = .ok w ∧
      Samples contig s.nlat s.nphi x w (lapS2 (fieldR s.lmax s.mmax c)) := by
  obtain ⟨w, h1, h2⟩ := C23_laplacian_partial h (hm.roundTrip h.api) J (samples_rep h hm hc hv) ho (hb.band h)
  exact ⟨w, h1, (rep_samples h hm h2).congr hm.inside fun θ φ hs => (lapS2_fieldR _ _ c φ hs).symm⟩

/-- C24, analytic form, partial (fields without content in `l=nl`, `m=nm`): the output of `partial_phi` is the
derivative with respect to `φ` of the input field, at every grid point. -/
theorem C24_true_derivative_partial (h : s.Wf) (hm : s.sht.Math contig s.nlat s.nphi x A) (J : Junk (Cx CR))
    {v out : List CR} {c : ℕ → ℕ → ℂ} (hc : ∀ l, l ≤ s.lmax → (c l 0).im = 0) (hb : Below s c)
    (hv : Samples contig s.nlat s.nphi x v (fieldR s.lmax s.mmax c)) (ho : out.length = s.nSph) :
    ∃ w, s.partial_phi J v out = .ok w ∧ Samples contig s.nlat s.nphi x w (dPh (fieldR s.lmax s.mmax c)) := by
  obtain ⟨w, h1, h2⟩ := C24_partial_phi_partial h (hm.roundTrip h.api) J (samples_rep h hm hc hv) ho (hb.band h)
  exact ⟨w, h1, (rep_samples h hm h2).congr hm.inside fun θ φ _ => by rw [dPh_fieldR]⟩

/-! ### ladder operators and angular gradient -/

theorem raised_eq {L : ℕ} {c : ℕ → ℤ → ℂ} (h0 : ∀ m : ℤ, -(L : ℤ) ≤ m → m ≤ L → c L m = 0) {l : ℕ} (hl : l ≤ L)
    {m : ℤ} (h1 : -(l : ℤ) ≤ m) (h2 : m ≤ l) : raised L c l m = upC c l m := by
  unfold raised upC
  by_cases hlt : l < L
  · rw [if_pos hlt]
  · have : l = L := by omega
    subst this
    rw [if_neg hlt, h0 m h1 h2]
    split_ifs with hm
    · rfl
    · rw [h0 (m - 1) (by omega) (by omega), mul_zero]

theorem lowered_eq {L : ℕ} {c : ℕ → ℤ → ℂ} (h0 : ∀ m : ℤ, -(L : ℤ) ≤ m → m ≤ L → c L m = 0) {l : ℕ} (hl : l ≤ L)
    {m : ℤ} (h1 : -(l : ℤ) ≤ m) (h2 : m ≤ l) : lowered L c l m = downC c l m := by
  unfold lowered downC
  by_cases hlt : l < L
  · rw [if_pos hlt]
  · have : l = L := by omega
    subst this
    rw [if_neg hlt, h0 m h1 h2]
    split_ifs with hm
    · rfl
    · rw [h0 (m + 1) (by omega) (by omega), mul_zero]

theorem extC_top {L M : ℕ} {c : ℕ → ℕ → ℂ} (h0 : ∀ m, m ≤ L → m ≤ M → c L m = 0) (m : ℤ) (h1 : -(L : ℤ) ≤ m)
    (h2 : m ≤ L) : extC M c L m = 0 := by
  unfold extC
  split_ifs with a b d
  · rw [h0 0 (by omega) (by omega)]; simp
  · exact h0 _ (by omega) (by omega)
  · rw [h0 _ (by omega) (by omega)]; simp
  · rfl

/-- no content in the top degree and in the degrees whose orders are truncated -/
def Resolved (s : Sphere CR) (c : ℕ → ℕ → ℂ) : Prop := ∀ l m, m ≤ l → (s.mmax < l ∨ l = s.lmax) → l ≤ s.lmax → c l m = 0

theorem Resolved.ladders {c : ℕ → ℕ → ℂ} (hb : Resolved s c) (hd : s.lmax ^ 2 ≤ s.sht.ncp) : Ladders s c :=
  Or.inr ⟨hd, fun l m a b d => hb l m a (Or.inl b) d⟩

/-- C25, analytic form: on fields without content in the top degree and in the degrees whose orders are truncated (`l>nm`), `raise` and `lower` are the differential operators
`e^{iφ}(∂θ+i cotθ ∂φ)` and `e^{-iφ}(-∂θ+i cotθ ∂φ)`. -/
theorem C25_true_ladder_partial (h : s.Wf) (hm : s.sht.Math contig s.nlat s.nphi x A) (hd : s.lmax ^ 2 ≤ s.sht.ncp)
    (J : Junk (Cx CR)) {v : List CR} {out : List (Cx CR)} {c : ℕ → ℕ → ℂ}
    (hc : ∀ l, l ≤ s.lmax → (c l 0).im = 0) (hb : Resolved s c)
    (hv : Samples contig s.nlat s.nphi x v (fieldR s.lmax s.mmax c)) (ho : out.length = s.nSph) :
    (∃ w, s.raise J v out = .ok w ∧ SamplesC contig s.nlat s.nphi x w fun θ φ =>
      Complex.exp (Complex.I * φ) * (dTh (fieldR s.lmax s.mmax c) θ φ
        + Complex.I * ((Real.cos θ / Real.sin θ : ℝ) : ℂ) * dPh (fieldR s.lmax s.mmax c) θ φ)) ∧
    (∃ w, s.lower J v out = .ok w ∧ SamplesC contig s.nlat s.nphi x w fun θ φ =>
      Complex.exp (-(Complex.I * φ)) * (-dTh (fieldR s.lmax s.mmax c) θ φ
        + Complex.I * ((Real.cos θ / Real.sin θ : ℝ) : ℂ) * dPh (fieldR s.lmax s.mmax c) θ φ)) := by
  have hrep := samples_rep h hm hc hv
  have hemb := hm.emb h.api hrep
  rw [h.api.mmax_eq] at hemb
  have hq := (hm.roundTrip h.api).cplx _ _ hemb
  have hvl := Rep.len h hrep
  have r1 : s.sht.RepC (s.ladP s.raiseP v) (raisedG s.lmax s.mmax (extC s.mmax c)) := ⟨_, raiseP_coefs h hq, rfl⟩
  have r2 : s.sht.RepC (s.ladP s.lowerP v) (loweredG s.lmax s.mmax (extC s.mmax c)) := ⟨_, lowerP_coefs h hd hq, rfl⟩
  have e1 := h.raise_eq J hvl ho
  have e2 := h.lower_eq hd J hvl ho
  have hf := ladder_field h (hb.ladders hd)
  have htop := extC_top (L := s.lmax) (M := s.mmax) (c := c) (fun m a _ => hb s.lmax m a (Or.inr rfl) (Nat.le_refl _))
  have hsin : ∀ it, it < s.nlat → Real.sin (Real.arccos (x it)) ≠ 0 := by
    intro it hit
    rw [Real.sin_arccos]
    have := hm.inside it hit
    have : 0 < 1 - x it ^ 2 := by nlinarith [this.1, this.2]
    exact (Real.sqrt_pos.mpr this).ne'
  have hph : ∀ θ φ, fieldC s.lmax (fun l m => Complex.I * m * extC s.mmax c l m) θ φ
      = (dPh (fieldR s.lmax s.mmax c) θ φ : ℂ) := by
    intro θ φ
    rw [dPh_fieldR, fieldR_eq]; congr 1; funext l m; exact extC_phi s.mmax c l m
  constructor
  · refine ⟨_, e1, (repC_samples h hm r1).1, fun it ip h1 h2 => ?_⟩
    rw [(repC_samples h hm r1).2 it ip h1 h2, (hf _ _).1,
      fieldC_congr (c' := upC (extC s.mmax c)) (fun l m a b d => raised_eq htop a b d),
      fieldC_raise _ _ _ (hsin it h1), ← (fieldR_dTh _ _ c _ (hsin it h1)).2, hph]
  · refine ⟨_, e2, (repC_samples h hm r2).1, fun it ip h1 h2 => ?_⟩
    rw [(repC_samples h hm r2).2 it ip h1 h2, (hf _ _).2,
      fieldC_congr (c' := downC (extC s.mmax c)) (fun l m a b d => lowered_eq htop a b d),
      fieldC_lower _ _ _ (hsin it h1), ← (fieldR_dTh _ _ c _ (hsin it h1)).2, hph]

theorem sphX_value {contig : Bool} (h : s.Wf) (hm : s.sht.Math contig s.nlat s.nphi x A) (J : Junk (Cx CR))
    {v out : List CR} {c : ℕ → ℕ → ℂ} (hf : Ladders s c) (hrep : s.sht.Rep v c) (ho : out.length = s.nSph) :
    ∃ w, s.sphereX J v out = .ok w ∧ w.length = s.nlat * s.nphi ∧ ∀ it ip, it < s.nlat → ip < s.nphi →
      gv w (spos contig s.nlat s.nphi it ip) = fin
        (-(fieldC s.lmax (raised s.lmax (extC s.mmax c)) (Real.arccos (x it)) (phiN s.nphi ip)
          * fieldC s.lmax (lowered s.lmax (extC s.mmax c)) (Real.arccos (x it)) (phiN s.nphi ip)).re
          + (fieldR s.lmax s.mmax (fun l m => if l < s.lmax ∧ m < s.mmax then Complex.I * m * c l m else c l m)
              (Real.arccos (x it)) (phiN s.nphi ip)) ^ 2) := by
  have hd := hf.dense h
  have hemb := hm.emb h.api hrep
  rw [h.api.mmax_eq] at hemb
  have hv := Rep.len h hrep
  have hq := (hm.roundTrip h.api).cplx _ _ hemb
  have r1 : s.sht.RepC (s.ladP s.raiseP v) (raisedG s.lmax s.mmax (extC s.mmax c)) := ⟨_, raiseP_coefs h hq, rfl⟩
  have r2 : s.sht.RepC (s.ladP s.lowerP v) (loweredG s.lmax s.mmax (extC s.mmax c)) := ⟨_, lowerP_coefs h hd hq, rfl⟩
  have hl := ladder_field h hf
  have r3 := phiP_rep h (hm.roundTrip h.api) hrep
  have hlen : (s.sphXP v).length = s.nlat * s.nphi := by simp [Sphere.sphXP, h.nSph']
  refine ⟨_, h.sphereX_eq hd J hv ho, hlen, fun it ip h1 h2 => ?_⟩
  unfold Sphere.sphXP
  rw [gv_tab (by rw [h.nSph']; exact spos_lt h1 h2), (repC_samples h hm r1).2 it ip h1 h2,
    (repC_samples h hm r2).2 it ip h1 h2, (hl _ _).1, (hl _ _).2, (rep_samples h hm r3).2 it ip h1 h2]
  simp only [toCx, Cx.mul, fin_mul, fin_sub, fin_neg, fin_pown, fin_add]
  congr 1

/-- C26, partial (fields without content in the top degree, the top order and the degrees whose orders are truncated): `sphereX` is the squared angular gradient
`(∂θ f)^2+(∂φ f)^2/sin^2θ` at every grid point. -/
theorem C26_gradient_partial (h : s.Wf) (hm : s.sht.Math contig s.nlat s.nphi x A) (hd : s.lmax ^ 2 ≤ s.sht.ncp)
    (J : Junk (Cx CR)) {v out : List CR} {c : ℕ → ℕ → ℂ} (hc : ∀ l, l ≤ s.lmax → (c l 0).im = 0)
    (hb : Resolved s c) (ht : c s.mmax s.mmax = 0)
    (hv : Samples contig s.nlat s.nphi x v (fieldR s.lmax s.mmax c)) (ho : out.length = s.nSph) :
    ∃ w, s.sphereX J v out = .ok w ∧ Samples contig s.nlat s.nphi x w (gradSq (fieldR s.lmax s.mmax c)) := by
  obtain ⟨w, h1, h2, h3⟩ := sphX_value h hm J (hb.ladders hd) (samples_rep h hm hc hv) ho
  refine ⟨w, h1, h2, fun it ip a b => ?_⟩
  have hsin : Real.sin (Real.arccos (x it)) ≠ 0 := by
    rw [Real.sin_arccos]
    have := hm.inside it a
    have : 0 < 1 - x it ^ 2 := by nlinarith [this.1, this.2]
    exact (Real.sqrt_pos.mpr this).ne'
  rw [h3 it ip a b]
  congr 1
  have htop := extC_top (L := s.lmax) (M := s.mmax) (c := c) (fun m a _ => hb s.lmax m a (Or.inr rfl) (Nat.le_refl _))
  rw [fieldC_congr (c := raised s.lmax (extC s.mmax c)) (c' := upC (extC s.mmax c))
      (fun l m a b d => raised_eq htop a b d),
    fieldC_congr (c := lowered s.lmax (extC s.mmax c)) (c' := downC (extC s.mmax c))
      (fun l m a b d => lowered_eq htop a b d),
    fieldR_congr (c' := fun l m => Complex.I * m * c l m) (by
      intro l m a b d
      split_ifs with hlt
      · rfl
      · have z : c l m = 0 := by
          by_cases e : m = s.mmax ∧ l = s.mmax
          · rw [e.1, e.2, ht]
          · exact hb l m b (by omega) a
        rw [z, mul_zero])]
  have key := congrArg Complex.re (ladder_gradSq s.lmax s.mmax c (phiN s.nphi ip) hsin)
  rw [Complex.ofReal_re] at key
  rw [← key, Complex.add_re, Complex.neg_re, ← Complex.ofReal_pow, Complex.ofReal_re]

/-- C26: on the same fields the result is non-negative everywhere. -/
theorem C26_nonneg_partial (h : s.Wf) (hm : s.sht.Math contig s.nlat s.nphi x A) (hd : s.lmax ^ 2 ≤ s.sht.ncp)
    (J : Junk (Cx CR)) {v out : List CR} {c : ℕ → ℕ → ℂ} (hc : ∀ l, l ≤ s.lmax → (c l 0).im = 0)
    (hb : Resolved s c) (ht : c s.mmax s.mmax = 0)
    (hv : Samples contig s.nlat s.nphi x v (fieldR s.lmax s.mmax c)) (ho : out.length = s.nSph) :
    ∃ w, s.sphereX J v out = .ok w ∧ ∀ k, k < s.nSph → ∃ y, gv w k = fin y ∧ 0 ≤ y := by
  obtain ⟨w, h1, h2⟩ := C26_gradient_partial h hm hd J hc hb ht hv ho
  refine ⟨w, h1, fun k hk => ?_⟩
  rw [h.nSph'] at hk
  obtain ⟨it, ip, a, b, rfl⟩ := spos_surj (contig := contig) hk
  exact ⟨_, h2.2 it ip a b, by unfold gradSq; positivity⟩

/-- C26 fails in the top degree: for every field made of top-degree harmonics only, `sphereX` returns zero everywhere;
for `Y_{nl,0}` the true gradient is not zero on the grid. -/
theorem C26_top_degree_violated (h : s.Wf) (hm : s.sht.Math contig s.nlat s.nphi x A) (hml : s.lmax ≤ s.mmax + 1)
    (hM : 1 ≤ s.mmax) (J : Junk (Cx CR)) {out : List CR} (ho : out.length = s.nSph) :
    ∃ v c w, Samples contig s.nlat s.nphi x v (fieldR s.lmax s.mmax c) ∧ s.sphereX J v out = .ok w ∧
      (∀ k, k < s.nSph → gv w k = fin 0) ∧
      ∃ it ip, it < s.nlat ∧ ip < s.nphi ∧
        gradSq (fieldR s.lmax s.mmax c) (Real.arccos (x it)) (phiN s.nphi ip) ≠ 0 := by
  let c : ℕ → ℕ → ℂ := fun l m => if l = s.lmax ∧ m = 0 then 1 else 0
  have hc : ∀ l, (c l 0).im = 0 := by intro l; simp only [c]; split_ifs <;> simp
  obtain ⟨v, hv⟩ := exists_rep h c hc
  obtain ⟨w, h1, h2, h3⟩ := sphX_value h hm J (Or.inl hml) hv ho
  have hlow : ∀ l m, l < s.lmax → extC s.mmax c l m = 0 := by
    intro l m hlt
    unfold extC
    have : ∀ k, c l k = 0 := fun k => by simp only [c]; rw [if_neg (by omega)]
    simp [this]
  have hsame : ∀ θ φ, fieldC s.lmax (raised s.lmax (extC s.mmax c)) θ φ = (fieldR s.lmax s.mmax c θ φ : ℂ) ∧
      fieldC s.lmax (lowered s.lmax (extC s.mmax c)) θ φ = (fieldR s.lmax s.mmax c θ φ : ℂ) := by
    intro θ φ
    constructor
    · rw [fieldR_eq]
      apply fieldC_congr
      intro l m _ _ _
      unfold raised
      split_ifs with a b
      · rw [hlow l m a]
      · rw [hlow l m a, hlow l _ a, mul_zero]
      · rfl
    · rw [fieldR_eq]
      apply fieldC_congr
      intro l m _ _ _
      unfold lowered
      split_ifs with a b
      · rw [hlow l m a]
      · rw [hlow l m a, hlow l _ a, mul_zero]
      · rfl
  refine ⟨v, c, w, rep_samples h hm hv, h1, ?_, ?_⟩
  · intro k hk
    rw [h.nSph'] at hk
    obtain ⟨it, ip, a, b, rfl⟩ := spos_surj (contig := contig) hk
    rw [h3 it ip a b]
    congr 1
    rw [(hsame _ _).1, (hsame _ _).2, fieldR_congr
      (c := fun l m => if l < s.lmax ∧ m < s.mmax then Complex.I * m * c l m else c l m) (c' := c) (by
      intro l m _ _ _
      simp only [c]
      split_ifs with a b
      · omega
      · simp
      · rfl
      · rfl)]
    rw [← Complex.ofReal_mul, Complex.ofReal_re]
    ring
  · by_contra hcon
    push Not at hcon
    have hl : 1 ≤ s.lmax := hM.trans h.api.m_le
    have hcut : ∀ θ φ, fieldC s.lmax (cutC s.mmax (upC (extC s.mmax c))) θ φ = fieldC s.lmax (upC (extC s.mmax c)) θ φ := by
      refine fieldC_congr fun l m _ _ _ => ?_
      unfold cutC
      split_ifs with hc
      · rfl
      · unfold upC
        split_ifs with hm1
        · rfl
        · have : extC s.mmax c l (m - 1) = 0 := by
            have h1 : m ≠ 1 := by rintro rfl; apply hc; rw [abs_le]; omega
            unfold extC
            split_ifs with a b d
            · omega
            · simp only [c]; rw [if_neg (by omega)]
            · simp only [c]; rw [if_neg (by omega)]; simp
            · rfl
          rw [this, mul_zero]
    -- then `L₊ f` vanishes on the grid, so its coefficients vanish
    have hzero : ∀ it ip, it < s.nlat → ip < s.nphi →
        fieldC s.lmax (upC (extC s.mmax c)) (Real.arccos (x it)) (phiN s.nphi ip) = 0 := by
      intro it ip a b
      have hsin : Real.sin (Real.arccos (x it)) ≠ 0 := by
        rw [Real.sin_arccos]
        have := hm.inside it a
        have : 0 < 1 - x it ^ 2 := by nlinarith [this.1, this.2]
        exact (Real.sqrt_pos.mpr this).ne'
      have hg := hcon it ip a b
      unfold gradSq at hg
      have hz1 : dTh (fieldR s.lmax s.mmax c) (Real.arccos (x it)) (phiN s.nphi ip) = 0 := by
        have h5 : 0 ≤ dPh (fieldR s.lmax s.mmax c) (Real.arccos (x it)) (phiN s.nphi ip) ^ 2
          / Real.sin (Real.arccos (x it)) ^ 2 := by positivity
        nlinarith [sq_nonneg (dTh (fieldR s.lmax s.mmax c) (Real.arccos (x it)) (phiN s.nphi ip))]
      have hz2 : dPh (fieldR s.lmax s.mmax c) (Real.arccos (x it)) (phiN s.nphi ip) = 0 := by
        rw [hz1] at hg
        have h6 : dPh (fieldR s.lmax s.mmax c) (Real.arccos (x it)) (phiN s.nphi ip) ^ 2
          / Real.sin (Real.arccos (x it)) ^ 2 = 0 := by linarith
        rw [div_eq_zero_iff] at h6
        rcases h6 with h6 | h6
        · exact pow_eq_zero_iff (two_ne_zero) |>.mp h6
        · exact absurd h6 (pow_ne_zero _ hsin)
      rw [fieldC_raise _ _ _ hsin, ← (fieldR_dTh _ _ c _ hsin).2, hz1]
      have hph : fieldC s.lmax (fun l m => Complex.I * m * extC s.mmax c l m) (Real.arccos (x it)) (phiN s.nphi ip)
          = (dPh (fieldR s.lmax s.mmax c) (Real.arccos (x it)) (phiN s.nphi ip) : ℂ) := by
        rw [dPh_fieldR, fieldR_eq]; congr 1; funext l m; exact extC_phi s.mmax c l m
      rw [hph, hz2]
      simp
    obtain ⟨q1, hq1⟩ := exists_coefsC h.api.mmax_le (upC (extC s.mmax c))
    obtain ⟨q2, hq2⟩ := exists_coefsC h.api.mmax_le (fun _ _ => 0)
    have e : s.sht.shToSpatC q1 = s.sht.shToSpatC q2 := by
      have l1 := h.api.len_shToSpatC _ hq1.1
      have l2 := h.api.len_shToSpatC _ hq2.1
      apply list_ext_gv (by rw [l1, l2])
      intro k hk
      rw [l1, h.api.nspat_eq] at hk
      obtain ⟨it, ip, a, b, rfl⟩ := spos_surj (contig := contig) hk
      rw [hm.synC _ _ hq1 it ip a b, hm.synC _ _ hq2 it ip a b, h.api.lmax_eq, h.api.mmax_eq, hcut, hzero it ip a b]
      congr 1
      unfold fieldC cutC
      simp
    have c1 := (hm.roundTrip h.api).cplx _ _ ⟨q1, hq1, rfl⟩
    have c2 := (hm.roundTrip h.api).cplx _ _ ⟨q2, hq2, rfl⟩
    rw [e] at c1
    have hR : s.sht.ResC s.lmax 1 :=
      ⟨le_of_eq h.api.lmax_eq.symm, by rw [abs_le]; omega, by rw [h.api.mmax_eq, abs_le]; omega⟩
    have d1 := c1.2 s.lmax 1 hR
    have d2 := c2.2 s.lmax 1 hR
    rw [d1] at d2
    have d3 := toCx_inj d2
    unfold upC at d3
    rw [if_neg (by omega)] at d3
    have e1 : extC s.mmax c s.lmax (1 - 1) = 1 := by
      unfold extC
      simp [c]
    rw [e1, mul_one] at d3
    beta_reduce at d3
    have d4 : Real.sqrt (((s.lmax : ℝ) - ((1 : ℤ) : ℝ) + 1) * (s.lmax + ((1 : ℤ) : ℝ))) = 0 := by exact_mod_cast d3
    have hpos : (1 : ℝ) ≤ s.lmax := by exact_mod_cast hl
    rw [Real.sqrt_eq_zero'] at d4
    push_cast at d4
    nlinarith

/-! ### requested harmonic -/

/-- C28, analytic form: for a resolved `(l,m)` the samples are those of `Y_l0` (`m=0`) or `2 Re Y_lm` (`m>0`). -/
theorem C28_samples (h : s.Wf) (hm : s.sht.Math contig s.nlat s.nphi x A) (J : Junk (Cx CR)) {l m : ℕ}
    (h1 : m ≤ l) (h2 : l ≤ s.lmax) (h3 : m ≤ s.mmax) :
    ∃ w, s.compute_ylm J l m = .ok w ∧ Samples contig s.nlat s.nphi x w fun θ φ =>
      if m = 0 then (Ylm l 0 θ φ).re else 2 * (Ylm l m θ φ).re := by
  obtain ⟨w, e, r⟩ := C28_unit_coefficient h J (l := l) (m := m)
    ⟨h1, by rw [h.api.lmax_eq]; exact h2, by rw [h.api.mmax_eq]; exact h3⟩
  refine ⟨w, e, (rep_samples h hm r).congr hm.inside fun θ φ _ => ?_⟩
  unfold fieldR
  rw [Finset.sum_eq_single l]
  · by_cases hm0 : m = 0
    · subst hm0
      rw [if_pos rfl]
      have hz : ∑ m ∈ Finset.Icc 1 (min l s.mmax), (if l = l ∧ m = 0 then (1 : ℂ) else 0) * Ylm l m θ φ = 0 :=
        Finset.sum_eq_zero fun k hk => by
          rw [Finset.mem_Icc] at hk
          rw [if_neg (by omega), zero_mul]
      rw [hz]
      have : ThZ l 0 = ThN l 0 := ThZ_nat l 0
      simp [Ylm, this]
    · rw [if_neg hm0, Finset.sum_eq_single m]
      · simp
        left; rw [if_neg (fun hh => hm0 hh.symm)]; rfl
      · intro k _ hk
        beta_reduce
        rw [if_neg (by omega), zero_mul]
      · intro hk
        rw [Finset.mem_Icc] at hk
        omega
  · intro l' _ hne
    have hz : ∑ k ∈ Finset.Icc 1 (min l' s.mmax), (if l' = l ∧ k = m then (1 : ℂ) else 0) * Ylm l' k θ φ = 0 :=
      Finset.sum_eq_zero fun k _ => by rw [if_neg (by omega), zero_mul]
    rw [hz]
    simp [hne]
  · intro hk
    rw [Finset.mem_range] at hk
    omega

/-! ### satisfiability of the hypotheses -/

/-- A concrete configuration (the shipped `nl=20`, `nm=18` on 36 x 40 points) and a non-trivial admissible field. -/
example : ∃ (s : Sphere CR) (x : ℕ → ℝ) (A : ℕ → ℕ → ℕ → ℝ) (v : List CR) (c : ℕ → ℕ → ℂ), s.Wf ∧
    s.sht.Math true s.nlat s.nphi x A ∧ s.sht.RoundTrip ∧ s.lmax = 20 ∧ s.mmax = 18 ∧ s.lmax ^ 2 ≤ s.sht.ncp ∧ Below s c ∧
    s.sht.Rep v c ∧ Resolved s c ∧ c s.mmax s.mmax = 0 ∧
    Samples true s.nlat s.nphi x v (fieldR s.lmax s.mmax c) ∧ c 2 1 ≠ 0 ∧ s.sht.Res 2 1 := by
  obtain ⟨s, x, A, hw, hm, h1, h2, h3, h4, _⟩ := exists_sphere true false (L := 20) (M := 18) (nlat := 36) (nphi := 40)
    (by omega) (by omega) (by omega) (by omega)
  let c : ℕ → ℕ → ℂ := fun l m => if l = 2 ∧ m = 1 then 1 + Complex.I else 0
  obtain ⟨v, hv⟩ := exists_rep hw c (by intro l; simp [c])
  refine ⟨s, x, A, v, c, hw, hm, hm.roundTrip hw.api, h1, h2, ?_, ?_, hv, ?_, ?_, rep_samples hw hm hv, ?_, ?_⟩
  · rw [hw.ncp_eq, h1, h2]; decide
  · intro l m _ _ _ h
    simp only [c]
    rw [if_neg (by omega)]
  · intro l m _ _ _
    simp only [c]
    rw [if_neg (by omega)]
  · simp only [c]
    rw [if_neg (by omega)]
  · simp only [c, and_self, if_true]
    intro h
    have := congrArg Complex.re h
    simp at this
  · refine ⟨by omega, ?_, ?_⟩
    · rw [hw.api.lmax_eq]; omega
    · rw [hw.api.mmax_eq]; omega

/-- and one for the claims about `nl≤nm+1` -/
example : ∃ (s : Sphere CR) (x : ℕ → ℝ) (A : ℕ → ℕ → ℕ → ℝ), s.Wf ∧ s.sht.Math true s.nlat s.nphi x A ∧
    s.lmax ≤ s.mmax + 1 ∧ s.mmax < s.lmax ∧ 1 ≤ s.mmax := by
  obtain ⟨s, x, A, hw, hm, h1, h2, h3, h4, _⟩ := exists_sphere true false (L := 4) (M := 3) (nlat := 8) (nphi := 8)
    (by omega) (by omega) (by omega) (by omega)
  exact ⟨s, x, A, hw, hm, by omega, by omega, by omega⟩

end SFK
