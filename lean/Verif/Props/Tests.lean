import Verif.Lemmas.Tests
import Verif.Lemmas.TestField
import Verif.Props.Uninit
/-
C101: the verdict of the unit tests of the sphere in exact arithmetic, for every library that meets its contract and every content of
uninitialised memory.
-/
namespace SFK
open Scalar CR

namespace Tests
variable {sht : Shtns CR} {contig nd : Bool} {x : ℕ → ℝ} {A : ℕ → ℕ → ℕ → ℝ}

/-- what the constructor call of a test leaves -/
theorem construct {nl nm nlat nphi na : ℕ} (hA : sht.Api nl nm nlat nphi) (hm : sht.Math contig nlat nphi x A) (hna : na = sht.nspat) (h31 : nl < 2 ^ 31) :
    ∃ s, Sphere.mk' nl nm nlat nphi na sht nd = .ok s ∧ s.Wf ∧ s.sht.Math contig s.nlat s.nphi x A ∧
      s.lmax = nl ∧ s.mmax = nm ∧ s.nlat = nlat ∧ s.nphi = nphi ∧ s.sht = sht := by
  obtain ⟨s, h1, h2, h3, h4, h5, h6, h7, _⟩ := Sphere.mk'_wf (nd := nd) hA hna h31
  subst h7
  exact ⟨s, h1, h2, by rw [h5, h6]; exact hm, h3, h4, h5, h6, rfl⟩

section
variable {s : Sphere CR}

/-- the verdict on two real vectors -/
theorem near_all (hW : s.nlat * s.nphi < W) {a b : List CR} {f g : ℕ → ℕ → ℝ} (ha : a.length = s.nlat * s.nphi) (hb : b.length = s.nlat * s.nphi)
    (hf : ∀ it ip, it < s.nlat → ip < s.nphi → gv a (spos contig s.nlat s.nphi it ip) = fin (f it ip))
    (hg : ∀ it ip, it < s.nlat → ip < s.nphi → gv b (spos contig s.nlat s.nphi it ip) = fin (g it ip)) (e : ℝ) (ok : Bool) :
    ∃ r, expectAll s (near contig s (fin e) a b) ok = .ok r ∧
      (r = true ↔ ok = true ∧ ∀ it ip, it < s.nlat → ip < s.nphi → |f it ip - g it ip| < e) := by
  obtain ⟨r, h1, h2⟩ := expectAll_eq (s := s) (p := near contig s (fin e) a b) (P := fun it ip => lt (fabs (fin (f it ip) - fin (g it ip))) (fin e))
    (fun it ip h1 h2 => by
      have := spos_lt (contig := contig) h1 h2
      unfold near
      rw [indx_eq hW h1 h2, rd_ok (by omega), ok_bind, rd_ok (by omega), ok_bind, hf it ip h1 h2, hg it ip h1 h2]) ok
  refine ⟨r, h1, ?_⟩
  rw [h2]
  simp only [fin_sub, fin_fabs, fin_lt]

/-- the verdict on two complex vectors -/
theorem nearC_all (hW : s.nlat * s.nphi < W) {a b : List (Cx CR)} {f g : ℕ → ℕ → ℂ} (ha : a.length = s.nlat * s.nphi)
    (hb : b.length = s.nlat * s.nphi)
    (hf : ∀ it ip, it < s.nlat → ip < s.nphi → gv a (spos contig s.nlat s.nphi it ip) = toCx (f it ip))
    (hg : ∀ it ip, it < s.nlat → ip < s.nphi → gv b (spos contig s.nlat s.nphi it ip) = toCx (g it ip)) (e : ℝ) (ok : Bool) :
    ∃ r, expectAll s (nearC contig s (fin e) a b) ok = .ok r ∧
      (r = true ↔ ok = true ∧ ∀ it ip, it < s.nlat → ip < s.nphi →
        1 / 2 * |(f it ip).re - (g it ip).re| + 1 / 2 * |(f it ip).im - (g it ip).im| < e) := by
  obtain ⟨r, h1, h2⟩ := expectAll_eq (s := s) (p := nearC contig s (fin e) a b)
    (P := fun it ip => lt (fin (1 / 2 * |(f it ip).re - (g it ip).re| + 1 / 2 * |(f it ip).im - (g it ip).im|)) (fin e))
    (fun it ip h1 h2 => by
      have := spos_lt (contig := contig) h1 h2
      unfold nearC
      rw [indx_eq hW h1 h2, rd_ok (by omega), ok_bind, rd_ok (by omega), ok_bind, hf it ip h1 h2, hg it ip h1 h2]
      simp only [toCx, fin_lit, fin_sub, fin_fabs, fin_mul, fin_add]
      norm_num) ok
  refine ⟨r, h1, ?_⟩
  rw [h2]
  simp only [fin_lt]

/-- the test field, filled in -/
theorem fill_bump (h : s.Wf) (hm : s.sht.Math contig s.nlat s.nphi x A) (hW : s.nlat * s.nphi < W) (hL : 2 ≤ s.lmax) (hM : 2 ≤ s.mmax) :
    ∃ v, fill contig s bumpF (List.replicate s.nSph 0) = .ok v ∧ Samples contig s.nlat s.nphi x v (fieldR s.lmax s.mmax bumpC) := by
  obtain ⟨v, h1, h2, h3⟩ := fill_eq h hm hW bumpF (v := List.replicate s.nSph 0) (by simp)
  refine ⟨v, h1, h2, fun it ip a b => ?_⟩
  rw [h3 it ip a b, fieldR_bump hL hM]
  unfold bumpF
  simp only [fin_sin, fin_cos, fin_pown, fin_mul, fin_ofNat_one, fin_add]

/-- a reference, filled in -/
theorem fill_ref (h : s.Wf) (hm : s.sht.Math contig s.nlat s.nphi x A) (hW : s.nlat * s.nphi < W) {F : CR → CR → CR} {f : ℝ → ℝ → ℝ}
    (hF : ∀ a b, F (fin a) (fin b) = fin (f a b)) :
    ∃ v, fill contig s F (List.replicate s.nSph 0) = .ok v ∧ Samples contig s.nlat s.nphi x v f := by
  obtain ⟨v, h1, h2, h3⟩ := fill_eq h hm hW F (v := List.replicate s.nSph 0) (by simp)
  exact ⟨v, h1, h2, fun it ip a b => by rw [h3 it ip a b, hF]⟩

theorem fill_refC (h : s.Wf) (hm : s.sht.Math contig s.nlat s.nphi x A) (hW : s.nlat * s.nphi < W) {F : CR → CR → Cx CR} {f : ℝ → ℝ → ℂ}
    (hF : ∀ a b, F (fin a) (fin b) = toCx (f a b)) :
    ∃ v, fill contig s F (List.replicate s.nSph ⟨0, 0⟩) = .ok v ∧ SamplesC contig s.nlat s.nphi x v f := by
  obtain ⟨v, h1, h2, h3⟩ := fill_eq h hm hW F (v := List.replicate s.nSph ⟨0, 0⟩) (by simp)
  exact ⟨v, h1, h2, fun it ip a b => by rw [h3 it ip a b, hF]⟩

theorem near_pass (hW : s.nlat * s.nphi < W) {a b : List CR} {f : ℝ → ℝ → ℝ} (ha : Samples contig s.nlat s.nphi x a f)
    (hb : Samples contig s.nlat s.nphi x b f) {e : ℝ} (he : 0 < e) : expectAll s (near contig s (fin e) a b) true = .ok true := by
  obtain ⟨r, h1, h2⟩ := near_all hW ha.1 hb.1 ha.2 hb.2 e true
  rw [h1, h2.mpr ⟨rfl, fun it ip _ _ => by simpa using he⟩]

theorem nearC_pass (hW : s.nlat * s.nphi < W) {a b : List (Cx CR)} {f : ℝ → ℝ → ℂ} (ha : SamplesC contig s.nlat s.nphi x a f)
    (hb : SamplesC contig s.nlat s.nphi x b f) {e : ℝ} (he : 0 < e) : expectAll s (nearC contig s (fin e) a b) true = .ok true := by
  obtain ⟨r, h1, h2⟩ := nearC_all hW ha.1 hb.1 ha.2 hb.2 e true
  rw [h1, h2.mpr ⟨rfl, fun it ip _ _ => by simpa using he⟩]

theorem bump_below (hL : 2 < s.lmax) (hM : 2 < s.mmax) : Below s bumpC := by
  intro l m h1 h2 h3 h4
  unfold bumpC
  rw [if_neg (by omega), if_neg (by omega), if_neg (by omega)]

end

/-- the test function -/
noncomputable def bumpR (θ φ : ℝ) : ℝ := 1 + Real.sin θ ^ 2 * Real.cos φ ^ 2

theorem fieldR_bumpR {L M : ℕ} (hL : 2 ≤ L) (hM : 2 ≤ M) : fieldR L M bumpC = bumpR := by
  funext θ φ
  exact fieldR_bump hL hM θ φ

theorem dPh_bump (θ φ : ℝ) : dPh bumpR θ φ = Real.sin θ ^ 2 * (-2 * Real.sin φ * Real.cos φ) := by
  unfold dPh bumpR
  have h := (((Real.hasDerivAt_cos φ).pow 2).const_mul (Real.sin θ ^ 2)).const_add 1
  have := h.deriv
  simp only [Pi.pow_apply] at this ⊢
  rw [this, show (2 - 1 : ℕ) = 1 from rfl, pow_one]
  push_cast
  ring

theorem dTh_bump (θ φ : ℝ) : dTh bumpR θ φ = 2 * Real.sin θ * Real.cos θ * Real.cos φ ^ 2 := by
  unfold dTh bumpR
  have h := (((Real.hasDerivAt_sin θ).pow 2).mul_const (Real.cos φ ^ 2)).const_add 1
  have := h.deriv
  simp only [Pi.pow_apply] at this ⊢
  rw [this]
  simp

theorem lap_bump {θ : ℝ} (φ : ℝ) (hs : Real.sin θ ≠ 0) :
    lapS2 bumpR θ φ = 1 / 2 * (1 + 3 * Real.cos (2 * θ) - 6 * Real.cos (2 * φ) * Real.sin θ ^ 2) := by
  unfold lapS2
  have e1 : (fun t => Real.sin t * dTh bumpR t φ) = fun t => 2 * Real.cos φ ^ 2 * (Real.sin t ^ 2 * Real.cos t) := by
    funext t; rw [dTh_bump]; ring
  have h1 : HasDerivAt (fun t => 2 * Real.cos φ ^ 2 * (Real.sin t ^ 2 * Real.cos t))
      (2 * Real.cos φ ^ 2 * (2 * Real.sin θ * Real.cos θ * Real.cos θ + Real.sin θ ^ 2 * (-Real.sin θ))) θ := by
    have := (((Real.hasDerivAt_sin θ).pow 2).mul (Real.hasDerivAt_cos θ)).const_mul (2 * Real.cos φ ^ 2)
    refine this.congr_deriv ?_
    rw [show (2 - 1 : ℕ) = 1 from rfl, pow_one]
    simp only [Pi.pow_apply, Nat.cast_ofNat]
  have e2 : dPh (dPh bumpR) θ φ = Real.sin θ ^ 2 * (-2 * (Real.cos φ ^ 2 - Real.sin φ ^ 2)) := by
    have : dPh (dPh bumpR) θ φ = deriv (fun t => Real.sin θ ^ 2 * (-2 * (Real.sin t * Real.cos t))) φ := by
      conv_lhs => unfold dPh
      congr 1
      funext t
      have := dPh_bump θ t
      unfold dPh at this
      rw [this]; ring
    rw [this]
    have h := (((Real.hasDerivAt_sin φ).mul (Real.hasDerivAt_cos φ)).const_mul (-2)).const_mul (Real.sin θ ^ 2)
    exact (h.deriv).trans (by ring)
  rw [e1, h1.deriv, e2, Real.cos_two_mul, Real.cos_two_mul]
  field_simp
  have a := Real.sin_sq_add_cos_sq θ
  have b := Real.sin_sq_add_cos_sq φ
  have a' : Real.cos θ ^ 2 = 1 - Real.sin θ ^ 2 := by linarith
  have b' : Real.sin φ ^ 2 = 1 - Real.cos φ ^ 2 := by linarith
  rw [a', b']
  ring

end Tests
open Tests
variable {sht : Shtns CR} {contig nd : Bool} {x : ℕ → ℝ} {A : ℕ → ℕ → ℕ → ℝ}

/-- **C101**: `make_Ylm` passes. -/
theorem C101_make_Ylm (hA : sht.Api 32 16 34 96) (hm : sht.Math contig 34 96 x A) {na : ℕ} (hna : na = sht.nspat) (J : Junk (Cx CR)) :
    make_Ylm sht na contig nd J = .ok true := by
  obtain ⟨s, h1, hw, hm, hl, hM, e1, e2, _⟩ := construct (nd := nd) hA hm hna (by norm_num)
  have hW : s.nlat * s.nphi < W := by rw [e1, e2]; decide
  have hp : 0 < s.nphi := by omega
  obtain ⟨y0, a1, a2⟩ := C28_samples hw hm (J.sub 0) (l := 0) (m := 0) (by omega) (by omega) (by omega)
  obtain ⟨y1, b1, b2⟩ := C28_samples hw hm (J.sub 1) (l := 1) (m := 0) (by omega) (by omega) (by omega)
  obtain ⟨y2, c1, c2⟩ := C28_samples hw hm (J.sub 2) (l := 1) (m := 1) (by omega) (by omega) (by omega)
  unfold make_Ylm
  rw [h1, ok_bind, a1, ok_bind, b1, ok_bind, c1, ok_bind]
  have hz : ∀ (l : ℕ) (θ φ : ℝ), (Ylm l 0 θ φ).re = ThN l 0 θ := by
    intro l θ φ
    have := Ylm_re l 0 θ φ 1
    simpa using this
  have ho : ∀ (θ φ : ℝ), (Ylm 1 1 θ φ).re = ThN 1 1 θ * Real.cos φ := by
    intro θ φ
    have := Ylm_re 1 1 θ φ 1
    simpa using this
  have hsq : Real.sqrt (3 / (2 * Real.pi)) = 2 * nrmY 1 1 := by
    rw [nrmY_11, show (3 / (2 * Real.pi)) = 2 ^ 2 * (3 / (8 * Real.pi)) by field_simp; norm_num, Real.sqrt_mul (by positivity),
      Real.sqrt_sq (by norm_num)]
  obtain ⟨r, r1, r2⟩ := expectAll_eq (s := s) (P := fun _ _ => true) (p := fun it ip => do
      let th ← s.theta it
      let ph := s.phi ip
      let a ← rd y0 (indx contig s it ip)
      let b ← rd y1 (indx contig s it ip)
      let c ← rd y2 (indx contig s it ip)
      .ok (lt (fabs (rt (1 / (4 * pi)) - a)) (tenth 15)
        && lt (fabs (rt (3 / (4 * pi)) * cos th - b)) (tenth 15)
        && lt (fabs (-(rt (3 / (2 * pi))) * sin th * cos ph - c)) (tenth 15))) (fun it ip q1 q2 => by
    have hlt := spos_lt (contig := contig) q1 q2
    have l0 := a2.1
    have l1 := b2.1
    have l2 := c2.1
    rw [theta_eq hw hm q1, ok_bind, phi_eq hw hp, indx_eq hW q1 q2, rd_ok (by omega), ok_bind, rd_ok (by omega), ok_bind, rd_ok (by omega), ok_bind,
      a2.2 it ip q1 q2, b2.2 it ip q1 q2, c2.2 it ip q1 q2]
    beta_reduce
    rw [if_pos rfl, if_pos rfl, if_neg (by norm_num)]
    have h4 : (4 * Real.pi) ≠ 0 := by positivity
    have h2 : (2 * Real.pi) ≠ 0 := by positivity
    simp only [Nat.cast_one, hz, ho, ThN_00, ThN_10, ThN_11, nrmY_00, nrmY_10, fin_pi, fin_ofNat', fin_ofNat_one, fin_mul, fin_div _ _ h4, fin_div _ _ h2, fin_cos, fin_sin,
      fin_rt _ (by positivity : (0:ℝ) ≤ 1 / (4 * Real.pi)), fin_rt _ (by positivity : (0:ℝ) ≤ 3 / (4 * Real.pi)),
      fin_rt _ (by positivity : (0:ℝ) ≤ 3 / (2 * Real.pi)), fin_neg, fin_sub, fin_fabs, fin_tenth, hsq]
    congr 1
    rw [Bool.and_eq_true, Bool.and_eq_true, fin_lt, fin_lt, fin_lt]
    refine ⟨⟨?_, ?_⟩, ?_⟩
    · rw [sub_self, abs_zero]; positivity
    · rw [sub_self, abs_zero]; positivity
    · rw [show -(2 * nrmY 1 1) * Real.sin (Real.arccos (x it)) * Real.cos (phiN s.nphi ip)
        - 2 * (-nrmY 1 1 * Real.sin (Real.arccos (x it)) * Real.cos (phiN s.nphi ip)) = 0 by ring, abs_zero]
      positivity) true
  rw [r1, r2.mpr ⟨rfl, fun _ _ _ _ => rfl⟩]

/-- **C101**: `to_and_from` passes. -/
theorem C101_to_and_from (hA : sht.Api 32 16 34 96) (hm : sht.Math contig 34 96 x A) {na : ℕ} (hna : na = sht.nspat) (J : Junk (Cx CR)) :
    to_and_from sht na contig nd J = .ok true := by
  obtain ⟨s, h1, hw, hm, hl, hM, e1, e2, _⟩ := construct (nd := nd) hA hm hna (by norm_num)
  have hW : s.nlat * s.nphi < W := by rw [e1, e2]; decide
  obtain ⟨v, v1, v2⟩ := fill_bump hw hm hW (by omega) (by omega)
  obtain ⟨c, c1, c2⟩ := fill_refC (F := fun th ph => Cx.ofRe (bumpF th ph)) (f := fun θ φ => ((bumpR θ φ : ℝ) : ℂ)) hw hm hW (fun a b => by
    unfold bumpF Cx.ofRe bumpR toCx
    simp only [fin_sin, fin_cos, fin_pown, fin_mul, fin_ofNat_one, fin_ofNat_zero, fin_add, Complex.ofReal_re, Complex.ofReal_im])
  have hrep := samples_rep hw hm (fun l _ => bumpC_real l) v2
  have hemb := hm.emb hw.api hrep
  have hvc : v.map Cx.ofRe = c := by
    refine list_ext_gv (by rw [List.length_map, v2.1, c2.1]) fun k hk => ?_
    rw [List.length_map, v2.1] at hk
    obtain ⟨it, ip, q1, q2, rfl⟩ := spos_surj (contig := contig) hk
    rw [c2.2 it ip q1 q2]
    have hv := v2.2 it ip q1 q2
    unfold gv at hv ⊢
    have hk' : spos contig s.nlat s.nphi it ip < v.length := by rw [v2.1]; exact hk
    rw [List.getElem?_map, List.getElem?_eq_getElem hk'] at *
    simp only [Option.map_some, Option.getD_some] at hv ⊢
    rw [hv, fieldR_bumpR (by omega) (by omega)]
    simp [Cx.ofRe, toCx]
  rw [hvc] at hemb
  obtain ⟨q, a1, _, a3⟩ := C22_round_trip hw (hm.roundTrip hw.api) (J.sub 0) (J.sub 1) hrep (o := List.replicate s.nSph 0) (y := List.replicate s.nYlm ⟨0, 0⟩)
    (by simp) (by simp)
  obtain ⟨qc, b1, _, b3⟩ := C22_round_trip_complex hw (hm.roundTrip hw.api) (J.sub 2) (J.sub 3) hemb (o := List.replicate s.nSph ⟨0, 0⟩)
    (y := List.replicate ((32 + 1) ^ 2) ⟨0, 0⟩) (by simp) (by rw [hl, List.length_replicate])
  unfold to_and_from
  rw [h1, ok_bind, v1, ok_bind, c1, ok_bind, a1, ok_bind, a3, ok_bind, b1, ok_bind, b3, ok_bind, fin_tenth,
    near_pass hW v2 v2 (by positivity), ok_bind, nearC_pass hW c2 c2 (by positivity)]

/-- **C101**: `partial_phi` passes. -/
theorem C101_partial_phi (hA : sht.Api 32 16 34 96) (hm : sht.Math contig 34 96 x A) {na : ℕ} (hna : na = sht.nspat) (J : Junk (Cx CR)) :
    partial_phi sht na contig nd J = .ok true := by
  obtain ⟨s, h1, hw, hm, hl, hM, e1, e2, _⟩ := construct (nd := nd) hA hm hna (by norm_num)
  have hW : s.nlat * s.nphi < W := by rw [e1, e2]; decide
  obtain ⟨v, v1, v2⟩ := fill_bump hw hm hW (by omega) (by omega)
  obtain ⟨d, d1, d2⟩ := fill_ref (F := fun th ph => pown (sin th) 2 * (-2 * sin ph * cos ph)) (f := dPh bumpR) hw hm hW (fun a b => by
    rw [dPh_bump]
    simp only [fin_sin, fin_cos, fin_pown, fin_mul, fin_ofNat', fin_neg])
  obtain ⟨w, w1, w2⟩ := C24_true_derivative_partial hw hm J (out := List.replicate s.nSph 0) (fun l _ => bumpC_real l)
    (bump_below (by omega) (by omega)) v2 (by simp)
  rw [fieldR_bumpR (by omega) (by omega)] at w2
  unfold partial_phi partial_phi_with
  rw [h1, ok_bind, v1, ok_bind, d1, ok_bind, w1, ok_bind, fin_lit, near_pass hW w2 d2 (by norm_num)]

/-- **C101**: and it tests what it says: with any function in place of `partial_phi` that returns finite numbers, the test passes if and only if these
numbers are within `5e-14` of the azimuthal derivative of the test function at every point. -/
theorem C101_partial_phi_detects (hA : sht.Api 32 16 34 96) (hm : sht.Math contig 34 96 x A) {na : ℕ} (hna : na = sht.nspat) (J : Junk (Cx CR))
    {op : Sphere CR → Junk (Cx CR) → List CR → List CR → Exec (List CR)} {f : ℕ → ℕ → ℝ}
    (hop : ∀ (s : Sphere CR) K v o, s.Wf → Samples contig 34 96 x v bumpR → ∃ w, op s K v o = .ok w ∧ w.length = 34 * 96 ∧
      ∀ it ip, it < 34 → ip < 96 → gv w (spos contig 34 96 it ip) = fin (f it ip)) :
    ∃ r, partial_phi_with op sht na contig nd J = .ok r ∧
      (r = true ↔ ∀ it ip, it < 34 → ip < 96 → |f it ip - dPh bumpR (Real.arccos (x it)) (phiN 96 ip)| < 5 / 10 ^ 14) := by
  obtain ⟨s, h1, hw, hm, hl, hM, e1, e2, _⟩ := construct (nd := nd) hA hm hna (by norm_num)
  have hW : s.nlat * s.nphi < W := by rw [e1, e2]; decide
  obtain ⟨v, v1, v2⟩ := fill_bump hw hm hW (by omega) (by omega)
  obtain ⟨d, d1, d2⟩ := fill_ref (F := fun th ph => pown (sin th) 2 * (-2 * sin ph * cos ph)) (f := dPh bumpR) hw hm hW (fun a b => by
    rw [dPh_bump]
    simp only [fin_sin, fin_cos, fin_pown, fin_mul, fin_ofNat', fin_neg])
  rw [fieldR_bumpR (by omega) (by omega), e1, e2] at v2
  obtain ⟨w, w1, w2, w3⟩ := hop s J v (List.replicate s.nSph 0) hw v2
  rw [← e1, ← e2] at w2 w3 ⊢
  obtain ⟨r, r1, r2⟩ := near_all hW w2 d2.1 w3 d2.2 (5 / 10 ^ 14) true
  have e5 : ((5 / 10 ^ 14 : ℚ) : ℝ) = 5 / 10 ^ 14 := by norm_num
  refine ⟨r, ?_, by rw [r2]; simp⟩
  unfold partial_phi_with
  rw [h1, ok_bind, v1, ok_bind, d1, ok_bind, w1, ok_bind, fin_lit, e5, r1]

/-- **C101**: `laplace_beltrami` passes. -/
theorem C101_laplace_beltrami (hA : sht.Api 32 24 34 60) (hm : sht.Math contig 34 60 x A) {na : ℕ} (hna : na = sht.nspat) (J : Junk (Cx CR)) :
    laplace_beltrami sht na contig nd J = .ok true := by
  obtain ⟨s, h1, hw, hm, hl, hM, e1, e2, _⟩ := construct (nd := nd) hA hm hna (by norm_num)
  have hW : s.nlat * s.nphi < W := by rw [e1, e2]; decide
  obtain ⟨v, v1, v2⟩ := fill_bump hw hm hW (by omega) (by omega)
  obtain ⟨d, d1, d2⟩ := fill_ref (F := fun th ph => lit (1 / 2) * (1 + 3 * cos (2 * th) - 6 * cos (2 * ph) * pown (sin th) 2))
    (f := fun θ φ => 1 / 2 * (1 + 3 * Real.cos (2 * θ) - 6 * Real.cos (2 * φ) * Real.sin θ ^ 2)) hw hm hW (fun a b => by
    simp only [fin_sin, fin_cos, fin_pown, fin_mul, fin_ofNat', fin_ofNat_one, fin_add, fin_sub, fin_lit]
    norm_num)
  obtain ⟨w, w1, w2⟩ := C23_true_laplacian_partial hw hm J (out := List.replicate s.nSph 0) (fun l _ => bumpC_real l)
    (bump_below (by omega) (by omega)) v2 (by simp)
  rw [fieldR_bumpR (by omega) (by omega)] at w2
  unfold laplace_beltrami laplace_beltrami_with
  rw [h1, ok_bind, v1, ok_bind, d1, ok_bind, w1, ok_bind, fin_lit,
    near_pass hW (w2.congr hm.inside fun θ φ hs => lap_bump φ hs) d2 (by norm_num)]

/-- **C101**: and with any function in place of `laplace_beltrami` that returns finite numbers, it passes if and only if these are within `5e-12` of the
Laplacian of the test function at every point. -/
theorem C101_laplace_beltrami_detects (hA : sht.Api 32 24 34 60) (hm : sht.Math contig 34 60 x A) {na : ℕ} (hna : na = sht.nspat) (J : Junk (Cx CR))
    {op : Sphere CR → Junk (Cx CR) → List CR → List CR → Exec (List CR)} {f : ℕ → ℕ → ℝ}
    (hop : ∀ (s : Sphere CR) K v o, s.Wf → Samples contig 34 60 x v bumpR → ∃ w, op s K v o = .ok w ∧ w.length = 34 * 60 ∧
      ∀ it ip, it < 34 → ip < 60 → gv w (spos contig 34 60 it ip) = fin (f it ip)) :
    ∃ r, laplace_beltrami_with op sht na contig nd J = .ok r ∧
      (r = true ↔ ∀ it ip, it < 34 → ip < 60 → |f it ip - lapS2 bumpR (Real.arccos (x it)) (phiN 60 ip)| < 5 / 10 ^ 12) := by
  obtain ⟨s, h1, hw, hm, hl, hM, e1, e2, _⟩ := construct (nd := nd) hA hm hna (by norm_num)
  have hW : s.nlat * s.nphi < W := by rw [e1, e2]; decide
  obtain ⟨v, v1, v2⟩ := fill_bump hw hm hW (by omega) (by omega)
  obtain ⟨d, d1, d2⟩ := fill_ref (F := fun th ph => lit (1 / 2) * (1 + 3 * cos (2 * th) - 6 * cos (2 * ph) * pown (sin th) 2))
    (f := fun θ φ => 1 / 2 * (1 + 3 * Real.cos (2 * θ) - 6 * Real.cos (2 * φ) * Real.sin θ ^ 2)) hw hm hW (fun a b => by
    simp only [fin_sin, fin_cos, fin_pown, fin_mul, fin_ofNat', fin_ofNat_one, fin_add, fin_sub, fin_lit]
    norm_num)
  have d3 := d2.congr hm.inside fun θ φ hs => (lap_bump φ hs).symm
  rw [fieldR_bumpR (by omega) (by omega), e1, e2] at v2
  obtain ⟨w, w1, w2, w3⟩ := hop s J v (List.replicate s.nSph 0) hw v2
  rw [← e1, ← e2] at w2 w3 ⊢
  obtain ⟨r, r1, r2⟩ := near_all hW w2 d3.1 w3 d3.2 (5 / 10 ^ 12) true
  have e5 : ((5 / 10 ^ 12 : ℚ) : ℝ) = 5 / 10 ^ 12 := by norm_num
  refine ⟨r, ?_, by rw [r2]; simp⟩
  unfold laplace_beltrami_with
  rw [h1, ok_bind, v1, ok_bind, d1, ok_bind, w1, ok_bind, fin_lit, e5, r1]

theorem dipC_field {L M : ℕ} (hL : 1 ≤ L) (θ φ : ℝ) : fieldR L M dipC θ φ = nrmY 1 0 * Real.cos θ := by
  unfold fieldR
  rw [Finset.sum_eq_single 1]
  · rw [Finset.sum_eq_zero]
    · unfold dipC
      simp [ThN_10]
    · intro m hm
      rw [Finset.mem_Icc] at hm
      unfold dipC
      rw [if_neg (by omega), zero_mul]
  · intro l _ hl
    rw [Finset.sum_eq_zero]
    · unfold dipC
      rw [if_neg (by omega)]; simp
    · intro m hm
      unfold dipC
      rw [if_neg (by omega), zero_mul]
  · intro h
    exact absurd (Finset.mem_range.mpr (by omega)) h

/-- The verdict of `raise_and_lower`, with arbitrary functions in place of the two it calls. -/
theorem Tests.raise_verdict (hA : sht.Api 20 14 40 32) (hm : sht.Math contig 40 32 x A) {na : ℕ} (hna : na = sht.nspat) (J : Junk (Cx CR))
    {up low : Sphere CR → Junk (Cx CR) → List CR → List (Cx CR) → Exec (List (Cx CR))} {f : ℕ → ℕ → ℂ}
    (hup : ∀ (s : Sphere CR) v, s.Wf → s.sht.Math contig s.nlat s.nphi x A → s.lmax = 20 → s.mmax = 14 → s.nlat = 40 → s.nphi = 32 →
      Samples contig s.nlat s.nphi x v (fieldR s.lmax s.mmax dipC) → ∃ w, up s (J.sub 0) v (List.replicate s.nSph ⟨0, 0⟩) = .ok w ∧
        w.length = s.nlat * s.nphi ∧ ∀ it ip, it < s.nlat → ip < s.nphi → gv w (spos contig s.nlat s.nphi it ip) = toCx (f it ip))
    (hlow : ∀ (s : Sphere CR) K v o, s.Wf → v.length = s.nSph → o.length = s.nSph → ∃ l, low s K v o = .ok l) :
    ∃ r, raise_and_lower_with up low sht na contig nd J = .ok r ∧ (r = true ↔ ∀ it ip, it < 40 → ip < 32 →
      1 / 2 * |(f it ip).re - (((Real.sqrt 2 : ℝ) : ℂ) * Ylm 1 1 (Real.arccos (x it)) (phiN 32 ip)).re|
        + 1 / 2 * |(f it ip).im - (((Real.sqrt 2 : ℝ) : ℂ) * Ylm 1 1 (Real.arccos (x it)) (phiN 32 ip)).im| < 5 / 10 ^ 12) := by
  obtain ⟨s, h1, hw, hm, hl, hM, e1, e2, _⟩ := construct (nd := nd) hA hm hna (by norm_num)
  have hW : s.nlat * s.nphi < W := by rw [e1, e2]; decide
  have hpi : Real.pi ≠ 0 := Real.pi_ne_zero
  have h2 : (2 * Real.pi) ≠ 0 := by positivity
  have n10 : 1 / 2 * Real.sqrt (3 / Real.pi) = nrmY 1 0 := by
    rw [nrmY_10, show (3 / (4 * Real.pi)) = (1 / 2) ^ 2 * (3 / Real.pi) by field_simp; norm_num, Real.sqrt_mul (by positivity),
      Real.sqrt_sq (by norm_num)]
  have n11 : 1 / 2 * Real.sqrt (3 / (2 * Real.pi)) = nrmY 1 1 := by
    rw [nrmY_11, show (3 / (8 * Real.pi)) = (1 / 2) ^ 2 * (3 / (2 * Real.pi)) by field_simp; norm_num, Real.sqrt_mul (by positivity),
      Real.sqrt_sq (by norm_num)]
  obtain ⟨v, v1, v2⟩ := fill_ref (F := fun th _ => lit (1 / 2) * rt (3 / pi) * cos th) (f := fieldR s.lmax s.mmax dipC) hw hm hW (fun a b => by
    rw [dipC_field (by omega)]
    simp only [fin_pi, fin_ofNat', fin_div _ _ hpi, fin_rt _ (by positivity : (0:ℝ) ≤ 3 / Real.pi), fin_lit, fin_mul, fin_cos, fin_inj]
    rw [← n10]
    norm_num)
  obtain ⟨r, r1, r2⟩ := fill_refC (F := fun th ph => Cx.smul' (rt 2) (Cx.smul' (-(lit (1 / 2)) * rt (3 / (2 * pi)) * sin th) (eip ph)))
    (f := fun θ φ => ((Real.sqrt 2 : ℝ) : ℂ) * Ylm 1 1 θ φ) hw hm hW (fun a b => by
    unfold Ylm toCx
    rw [show (1 : ℤ) = ((1 : ℕ) : ℤ) from rfl, ThZ_nat, ThN_11, ← n11, ← mul_assoc, ← Complex.ofReal_mul,
      show Complex.I * (((1 : ℕ) : ℤ) : ℂ) * (b : ℂ) = ((b : ℝ) : ℂ) * Complex.I by push_cast; ring,
      Complex.re_ofReal_mul, Complex.im_ofReal_mul, Complex.exp_ofReal_mul_I_re, Complex.exp_ofReal_mul_I_im]
    unfold eip Cx.smul'
    simp only [fin_pi, fin_ofNat', fin_ofNat_zero, fin_ofNat_one, fin_mul, fin_div _ _ h2, fin_rt _ (by positivity : (0:ℝ) ≤ 3 / (2 * Real.pi)), fin_lit, fin_cos, fin_sin,
      fin_rt _ (by norm_num : (0:ℝ) ≤ 2), fin_neg, fin_add, Cx.mk.injEq, fin_inj]
    constructor <;> (push_cast; ring))
  obtain ⟨l2, d1, _⟩ := fill_eq hw hm hW (fun th ph => Cx.smul' (rt 2) (Cx.smul' (lit (1 / 2) * rt (3 / (2 * pi)) * sin th) (eim ph)))
    (v := List.replicate s.nSph ⟨0, 0⟩) (by simp)
  have hvl : v.length = s.nSph := by rw [v2.1, hw.nSph']
  obtain ⟨w, w1, w2, w3⟩ := hup s v hw hm hl hM e1 e2 v2
  obtain ⟨l1, f1⟩ := hlow s (J.sub 1) v (List.replicate s.nSph ⟨0, 0⟩) hw hvl (by simp)
  obtain ⟨b, b1, b2⟩ := nearC_all hW w2 r2.1 w3 r2.2 (5 / 10 ^ 12) true
  have e5 : ((5 / 10 ^ 12 : ℚ) : ℝ) = 5 / 10 ^ 12 := by norm_num
  refine ⟨b, ?_, by rw [b2, e1, e2]; simp⟩
  unfold raise_and_lower_with
  rw [h1, ok_bind, v1, ok_bind, r1, ok_bind, d1, ok_bind, w1, ok_bind, f1, ok_bind, fin_lit, e5, b1]

/-- **C101**: `raise_and_lower` tests `raise`: with any function in its place that returns finite numbers, it passes if and only if these are within
`5e-12` of `√2 Y_11`, the raised `Y_10`, at every point. -/
theorem C101_raise_detects (hA : sht.Api 20 14 40 32) (hm : sht.Math contig 40 32 x A) {na : ℕ} (hna : na = sht.nspat) (J : Junk (Cx CR))
    {up : Sphere CR → Junk (Cx CR) → List CR → List (Cx CR) → Exec (List (Cx CR))} {f : ℕ → ℕ → ℂ}
    (hup : ∀ (s : Sphere CR) K v o, s.Wf → Samples contig 40 32 x v (fun θ φ => (Ylm 1 0 θ φ).re) → ∃ w, up s K v o = .ok w ∧ w.length = 40 * 32 ∧
      ∀ it ip, it < 40 → ip < 32 → gv w (spos contig 40 32 it ip) = toCx (f it ip)) :
    ∃ r, raise_and_lower_with up Sphere.lower sht na contig nd J = .ok r ∧ (r = true ↔ ∀ it ip, it < 40 → ip < 32 →
      1 / 2 * |(f it ip).re - (((Real.sqrt 2 : ℝ) : ℂ) * Ylm 1 1 (Real.arccos (x it)) (phiN 32 ip)).re|
        + 1 / 2 * |(f it ip).im - (((Real.sqrt 2 : ℝ) : ℂ) * Ylm 1 1 (Real.arccos (x it)) (phiN 32 ip)).im| < 5 / 10 ^ 12) := by
  refine raise_verdict hA hm hna J (fun s v hw _ h1 h2 h3 h4 hv => ?_) fun _ K _ _ hw hv ho => ⟨_, hw.lower_junk_eq K hv ho⟩
  have e : fieldR s.lmax s.mmax dipC = fun θ φ => (Ylm 1 0 θ φ).re := by
    funext θ φ
    rw [dipC_field (by omega)]
    have := Ylm_re 1 0 θ φ 1
    rw [ThN_10] at this
    simpa using this.symm
  rw [e] at hv
  rw [h3, h4] at hv ⊢
  exact hup s (J.sub 0) v _ hw hv

/-- **C101**: `raise_and_lower` passes - and it does so whatever `lower` computes, as long as it returns: the test never looks at the
result. -/
theorem C101_raise_only (hA : sht.Api 20 14 40 32) (hm : sht.Math contig 40 32 x A) {na : ℕ} (hna : na = sht.nspat) (J : Junk (Cx CR))
    {low : Sphere CR → Junk (Cx CR) → List CR → List (Cx CR) → Exec (List (Cx CR))}
    (hlow : ∀ (s : Sphere CR) K v o, s.Wf → v.length = s.nSph → o.length = s.nSph → ∃ l, low s K v o = .ok l) :
    raise_and_lower_with Sphere.raise low sht na contig nd J = .ok true := by
  obtain ⟨r, r1, r2⟩ := raise_verdict (up := Sphere.raise) (low := low) (nd := nd) hA hm hna J
    (f := fun it ip => ((Real.sqrt 2 : ℝ) : ℂ) * Ylm 1 1 (Real.arccos (x it)) (phiN 32 ip)) (fun s v hw hm hl hM e1 e2 v2 => by
      have hvl : v.length = s.nSph := by rw [v2.1, hw.nSph']
      have hrep := samples_rep hw hm (fun l _ => dipC_real l) v2
      have hemb := hm.emb hw.api hrep
      rw [hw.api.mmax_eq] at hemb
      have hq := (hm.roundTrip hw.api).cplx _ _ hemb
      have hR : s.sht.RepC (s.ladP s.raiseP v) (raisedG s.lmax s.mmax (extC s.mmax dipC)) := ⟨_, raiseP_coefs hw hq, rfl⟩
      have hS := repC_samples hw hm hR
      refine ⟨s.ladP s.raiseP v, hw.raise_eq _ hvl (by simp), hS.1, fun it ip a b => ?_⟩
      rw [hS.2 it ip a b, dipC_raise (by omega) (by omega), e2]) hlow
  rw [r1, r2.mpr fun it ip _ _ => by simp]

/-- **C101**: in particular with the `lower` of the code, for every content of uninitialised memory (which, with these sizes, `lower` does
read). -/
theorem C101_raise_and_lower (hA : sht.Api 20 14 40 32) (hm : sht.Math contig 40 32 x A) {na : ℕ} (hna : na = sht.nspat) (J : Junk (Cx CR)) :
    raise_and_lower sht na contig nd J = .ok true :=
  C101_raise_only hA hm hna J fun _ K _ _ hw hv ho => ⟨_, hw.lower_junk_eq K hv ho⟩

end SFK
