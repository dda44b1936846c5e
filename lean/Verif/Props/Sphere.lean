import Verif.Lemmas.Packed
import Mathlib.Data.Complex.BigOperators
/-
C22-C25, C27-C29 at the level of spherical-harmonic coefficients.
-/
namespace SFK
open Scalar CR

section generic
variable {α : Type} [Scalar α] {s : Sphere α}

/-- C22: the real and complex transform wrappers hand exactly the caller's data to the library and return exactly its
answer; every buffer index is in bounds.  (The complex wrappers copy `(lmax+1)^2` entries; with `mmax<lmax` the library uses
only the first `ncp` of them, and the rest is padding.) -/
theorem C22_wrappers (h : s.Wf) (J : Junk (Cx α)) {v : List α} {y : List (Cx α)} {vc yc : List (Cx α)}
    (hv : v.length = s.nSph) (hy : y.length = s.nYlm) (hvc : vc.length = s.nSph)
    (hyc : yc.length = (s.lmax + 1) ^ 2) :
    s.to_Ylm J v y = .ok (s.sht.spatToSH v) ∧ s.to_Sph J y v = .ok (s.sht.shToSpat y) ∧
    (∃ t, s.to_YlmC J vc yc = .ok (s.sht.spatToSHC vc ++ t) ∧ t.length = (s.lmax + 1) ^ 2 - s.sht.ncp) ∧
    s.to_SphC J yc vc = .ok (s.sht.shToSpatC (yc.take s.sht.ncp)) ∧ s.sht.ncp ≤ (s.lmax + 1) ^ 2 ∧
    (s.mmax = s.lmax → s.sht.ncp = (s.lmax + 1) ^ 2) :=
  ⟨h.to_Ylm_eq J hv hy, h.to_Sph_eq J hy hv, ⟨_, h.to_YlmC_eq J hvc hyc, by simp [Junk.buf]⟩, h.to_SphC_eq J hyc hvc, h.ncp_le, h.ncp_full⟩

/-- C22: no wrapper depends on the content of freshly allocated buffers or on the previous content of its output
array, and none leaves its arrays or fails an assertion.  Partial: for `lower` and `sphereX` the orders must not be truncated so
far that their loop, which runs over all of degrees `<lmax`, reaches the part of the buffer the library does not fill
(`(lmax-mmax)(lmax-mmax+1)>2*lmax+1`; see C22_uninitialised_read). -/
theorem C22_no_uninitialised_memory_partial (h : s.Wf) (J J' : Junk (Cx α)) {v o o' : List α} {oc oc' : List (Cx α)}
    {p p' : List α} (hv : v.length = s.nSph) (ho : o.length = s.nSph) (ho' : o'.length = s.nSph)
    (hoc : oc.length = s.nSph) (hoc' : oc'.length = s.nSph) (hp : p.length = s.lmax) (hp' : p'.length = s.lmax) :
    (∃ w, s.laplace_beltrami J v o = .ok w ∧ s.laplace_beltrami J' v o' = .ok w ∧ w.length = s.nSph) ∧
    (∃ w, s.partial_phi J v o = .ok w ∧ s.partial_phi J' v o' = .ok w ∧ w.length = s.nSph) ∧
    (∃ w, s.filter J v = .ok w ∧ s.filter J' v = .ok w ∧ w.length = s.nSph) ∧
    (∃ w, s.raise J v oc = .ok w ∧ s.raise J' v oc' = .ok w ∧ w.length = s.nSph) ∧
    (s.lmax ^ 2 ≤ s.sht.ncp → ∃ w, s.lower J v oc = .ok w ∧ s.lower J' v oc' = .ok w ∧ w.length = s.nSph) ∧
    (s.lmax ^ 2 ≤ s.sht.ncp → ∃ w, s.sphereX J v o = .ok w ∧ s.sphereX J' v o' = .ok w ∧ w.length = s.nSph) ∧
    (∃ w, s.power_spectrum J v p = .ok w ∧ s.power_spectrum J' v p' = .ok w ∧ w.length = s.lmax) ∧
    (∀ l m, s.sht.Res l m → ∃ w, s.compute_ylm J l m = .ok w ∧ s.compute_ylm J' l m = .ok w ∧ w.length = s.nSph) := by
  refine ⟨⟨_, h.laplace_eq J hv ho, h.laplace_eq J' hv ho', h.thruP_length _ _⟩,
    ⟨_, h.partial_phi_eq J hv ho, h.partial_phi_eq J' hv ho', h.thruP_length _ _⟩,
    ⟨_, h.filter_eq J hv, h.filter_eq J' hv, h.thruP_length _ _⟩,
    ⟨_, h.raise_eq J hv hoc, h.raise_eq J' hv hoc', h.ladP_length (fun _ _ => by simp [Sphere.raiseP]) hv⟩,
    fun hd => ⟨_, h.lower_eq hd J hv hoc, h.lower_eq hd J' hv hoc', h.ladP_length (fun _ _ => by simp [Sphere.lowerP]) hv⟩,
    fun hd => ⟨_, h.sphereX_eq hd J hv ho, h.sphereX_eq hd J' hv ho', by simp [Sphere.sphXP]⟩,
    ⟨_, h.power_spectrum_eq J hv hp, h.power_spectrum_eq J' hv hp', by simp [Sphere.powP]⟩, ?_⟩
  intro l m hr
  refine ⟨_, h.compute_ylm_eq J hr, h.compute_ylm_eq J' hr, ?_⟩
  rw [h.nSph_eq]
  exact h.api.len_shToSpat _ (by simp [Sphere.unitLM])

end generic

variable {s : Sphere CR}

theorem toCx_inj {z w : ℂ} (h : toCx z = toCx w) : z = w := by
  unfold toCx at h
  have h1 := congrArg Cx.re h
  have h2 := congrArg Cx.im h
  simp only [fin_inj] at h1 h2
  exact Complex.ext h1 h2

/-- C22: in exact arithmetic the pairs are mutually inverse on representable fields. -/
theorem C22_round_trip (h : s.Wf) (hrt : s.sht.RoundTrip) (J J' : Junk (Cx CR)) {v o : List CR} {y : List (Cx CR)}
    {c : ℕ → ℕ → ℂ} (hrep : s.sht.Rep v c) (ho : o.length = s.nSph) (hy : y.length = s.nYlm) :
    ∃ q, s.to_Ylm J v y = .ok q ∧ s.sht.IsCoefs q c ∧ s.to_Sph J' q o = .ok v := by
  obtain ⟨hre, q0, hq0, hv⟩ := hrep
  have hq := hrt.real v c ⟨hre, q0, hq0, hv⟩
  have hvl : v.length = s.nSph := by rw [h.nSph_eq, hv]; exact h.api.len_shToSpat _ hq0.1
  refine ⟨_, h.to_Ylm_eq J hvl hy, hq, ?_⟩
  rw [h.to_Sph_eq J' (by rw [h.nYlm_eq]; exact hq.1) ho]
  have : s.sht.spatToSH v = q0 := h.api.extLM hq.1 hq0.1 fun l m hr => by rw [hq.2 l m hr, hq0.2 l m hr]
  rw [this, hv]

theorem take_app {β : Type} (q t : List β) {n : ℕ} (hq : q.length = n) : (q ++ t).take n = q := by subst hq; simp

theorem C22_round_trip_complex (h : s.Wf) (hrt : s.sht.RoundTrip) (J J' : Junk (Cx CR)) {v o y : List (Cx CR)}
    {c : ℕ → ℤ → ℂ} (hrep : s.sht.RepC v c) (ho : o.length = s.nSph) (hy : y.length = (s.lmax + 1) ^ 2) :
    ∃ q, s.to_YlmC J v y = .ok q ∧ s.sht.IsCoefsC (q.take s.sht.ncp) c ∧ s.to_SphC J' q o = .ok v := by
  obtain ⟨q0, hq0, hv⟩ := hrep
  have hq := hrt.cplx v c ⟨q0, hq0, hv⟩
  have hvl : v.length = s.nSph := by rw [h.nSph_eq, hv]; exact h.api.len_shToSpatC _ hq0.1
  have hle := h.ncp_le
  refine ⟨_, h.to_YlmC_eq J hvl hy, by rw [take_app _ _ hq.1]; exact hq, ?_⟩
  rw [h.to_SphC_eq J' (by rw [List.length_append, hq.1]; simp [Junk.buf]; omega) ho, take_app _ _ hq.1]
  have : s.sht.spatToSHC v = q0 := by
    apply Shtns.cfC_ext h.api.mmax_le hq.1 hq0.1
    intro l m hr
    rw [hq.2 l m hr, hq0.2 l m hr]
  rw [this, hv]

theorem Rep.len (h : s.Wf) {v : List CR} {c : ℕ → ℕ → ℂ} (hr : s.sht.Rep v c) : v.length = s.nSph := by
  obtain ⟨_, q, hq, rfl⟩ := hr
  rw [h.nSph_eq]; exact h.api.len_shToSpat _ hq.1

theorem RepC.len (h : s.Wf) {v : List (Cx CR)} {c : ℕ → ℤ → ℂ} (hr : s.sht.RepC v c) : v.length = s.nSph := by
  obtain ⟨q, hq, rfl⟩ := hr
  rw [h.nSph_eq]; exact h.api.len_shToSpatC _ hq.1

/-- coefficients of a representable field are unique -/
theorem Rep.unique (hrt : s.sht.RoundTrip) {v : List CR} {c c' : ℕ → ℕ → ℂ} (h1 : s.sht.Rep v c)
    (h2 : s.sht.Rep v c') {l m : ℕ} (hr : s.sht.Res l m) : c l m = c' l m := by
  have e1 := (hrt.real v c h1).2 l m hr
  have e2 := (hrt.real v c' h2).2 l m hr
  rw [e1] at e2
  exact toCx_inj e2

theorem Rep.congr {v : List CR} {c c' : ℕ → ℕ → ℂ} (h1 : s.sht.Rep v c)
    (he : ∀ l m, s.sht.Res l m → c l m = c' l m) : s.sht.Rep v c' := by
  obtain ⟨hre, q, ⟨hl, hq⟩, hv⟩ := h1
  refine ⟨fun l hl => ?_, q, ⟨hl, fun l m hr => by rw [hq l m hr, he l m hr]⟩, hv⟩
  rw [← he l 0 ⟨Nat.zero_le _, hl, Nat.zero_le _⟩]
  exact hre l hl

theorem exists_rep (h : s.Wf) (c : ℕ → ℕ → ℂ) (hc : ∀ l, (c l 0).im = 0) : ∃ v, s.sht.Rep v c :=
  ⟨_, fun l _ => hc l, s.sht.mkLM fun l m => toCx (c l m), ⟨by simp, fun _ _ hr => h.api.cf_mkLM hr⟩, rfl⟩

/-- the common content of the scaling operators -/
theorem thruP_rep (h : s.Wf) (hrt : s.sht.RoundTrip) {G : ℕ → ℕ → Cx CR → Cx CR} {g : ℕ → ℕ → ℂ → ℂ}
    (hG : ∀ l m z, s.Touched l m → G l m (toCx z) = toCx (g l m z)) (hg : ∀ l z, z.im = 0 → (g l 0 z).im = 0)
    {v : List CR} {c : ℕ → ℕ → ℂ} (hr : s.sht.Rep v c) :
    s.sht.Rep (s.thruP G v) (fun l m => if l < s.lmax ∧ m < s.mmax then g l m (c l m) else c l m) := by
  have hq := hrt.real v c hr
  refine ⟨?_, _, ⟨by simp, ?_⟩, rfl⟩
  · intro l hl
    dsimp only
    split_ifs
    · exact hg l _ (hr.1 l hl)
    · exact hr.1 l hl
  · intro l m hres
    unfold Sphere.scaleP
    rw [h.api.cf_mkLM hres, hq.2 l m hres]
    have hiff : s.Touched l m ↔ (l < s.lmax ∧ m < s.mmax) := by
      have := hres.1
      unfold Sphere.Touched
      omega
    beta_reduce
    by_cases ht : s.Touched l m
    · rw [if_pos ht, if_pos (hiff.mp ht), hG l m _ ht]
    · rw [if_neg ht, if_neg (fun hh => ht (hiff.mpr hh))]

/-! ### C23 spherical Laplacian -/

theorem lapP_rep (h : s.Wf) (hrt : s.sht.RoundTrip) {v : List CR} {c : ℕ → ℕ → ℂ} (hr : s.sht.Rep v c) :
    s.sht.Rep (s.lapP v) (fun l m => if l < s.lmax ∧ m < s.mmax then -((l : ℂ) * (l + 1)) * c l m else c l m) := by
  apply thruP_rep h hrt (g := fun l _ z => -((l : ℂ) * (l + 1)) * z) _ _ hr
  · intro l m z _
    simp only [Cx.smul, toCx, fin_dbl, fin_neg, fin_ofNat_one, fin_add, fin_mul]
    congr 2 <;> simp <;> ring
  · intro l z hz
    simp [hz]

/-- What `laplace_beltrami` does to every representable field: the modes with `l<nl`, `m<nm` are multiplied by
`-l(l+1)`, the modes with `l=nl` or `m=nm` pass through unchanged. -/
theorem C23_action (h : s.Wf) (hrt : s.sht.RoundTrip) (J : Junk (Cx CR)) {v out : List CR} {c : ℕ → ℕ → ℂ}
    (hr : s.sht.Rep v c) (ho : out.length = s.nSph) :
    ∃ w, s.laplace_beltrami J v out = .ok w ∧
      s.sht.Rep w (fun l m => if l < s.lmax ∧ m < s.mmax then -((l : ℂ) * (l + 1)) * c l m else c l m) :=
  ⟨_, h.laplace_eq J (Rep.len h hr) ho, lapP_rep h hrt hr⟩

/-- C23, partial: the property holds for the fields without content in the top degree `l=nl` and the top order
`m=nm`.  Missing: those modes, for which it is false (next theorem). -/
theorem C23_laplacian_partial (h : s.Wf) (hrt : s.sht.RoundTrip) (J : Junk (Cx CR)) {v out : List CR}
    {c : ℕ → ℕ → ℂ} (hr : s.sht.Rep v c) (ho : out.length = s.nSph)
    (hband : ∀ l m, s.sht.Res l m → (l = s.lmax ∨ m = s.mmax) → c l m = 0) :
    ∃ w, s.laplace_beltrami J v out = .ok w ∧ s.sht.Rep w (fun l m => -((l : ℂ) * (l + 1)) * c l m) := by
  obtain ⟨w, h1, h2⟩ := C23_action h hrt J hr ho
  refine ⟨w, h1, Rep.congr h2 fun l m hres => ?_⟩
  split_ifs with hc
  · rfl
  · have h3 := hres.2
    rw [h.api.lmax_eq, h.api.mmax_eq] at h3
    rw [hband l m hres (by omega)]
    simp

/-- C23 fails for the top degree: whatever the configuration, the pure mode `(nl,0)` comes back multiplied
by 1 instead of `-nl(nl+1)`. -/
theorem C23_top_degree_violated (h : s.Wf) (hrt : s.sht.RoundTrip) (J : Junk (Cx CR))
    {out : List CR} (ho : out.length = s.nSph) :
    ∃ v c w, s.sht.Rep v c ∧ s.laplace_beltrami J v out = .ok w ∧ s.sht.Rep w c ∧
      ¬ s.sht.Rep w (fun l m => -((l : ℂ) * (l + 1)) * c l m) := by
  let c : ℕ → ℕ → ℂ := fun l m => if l = s.lmax ∧ m = 0 then 1 else 0
  obtain ⟨v, hv⟩ := exists_rep h c (by intro l; simp only [c]; split_ifs <;> simp)
  obtain ⟨w, h1, h2⟩ := C23_action h hrt J hv ho
  have h3 : s.sht.Rep w c := Rep.congr h2 fun l m _ => by
    simp only [c]
    split_ifs with a b
    · omega
    · simp
    · rfl
    · rfl
  refine ⟨v, c, w, hv, h1, h3, fun h4 => ?_⟩
  have h5 := Rep.unique hrt h3 h4 (l := s.lmax) (m := 0) ⟨Nat.zero_le _, le_of_eq h.api.lmax_eq.symm, Nat.zero_le _⟩
  simp only [c, and_self, if_true, mul_one] at h5
  have h6 := congrArg Complex.re h5
  simp at h6
  have : (0 : ℝ) ≤ s.lmax := Nat.cast_nonneg _
  nlinarith

/-! ### C24 azimuthal derivative -/

theorem phiP_rep (h : s.Wf) (hrt : s.sht.RoundTrip) {v : List CR} {c : ℕ → ℕ → ℂ} (hr : s.sht.Rep v c) :
    s.sht.Rep (s.phiP v) (fun l m => if l < s.lmax ∧ m < s.mmax then Complex.I * m * c l m else c l m) := by
  apply thruP_rep h hrt (g := fun _ m z => Complex.I * m * z) _ _ hr
  · intro l m z _
    simp only [Cx.mul, toCx, fin_dbl, fin_ofNat_one, fin_ofNat_zero, fin_add, fin_mul, fin_sub]
    congr 2 <;> simp <;> ring
  · intro l z hz
    simp

/-- What `partial_phi` does to every representable field. -/
theorem C24_action (h : s.Wf) (hrt : s.sht.RoundTrip) (J : Junk (Cx CR)) {v out : List CR} {c : ℕ → ℕ → ℂ}
    (hr : s.sht.Rep v c) (ho : out.length = s.nSph) :
    ∃ w, s.partial_phi J v out = .ok w ∧
      s.sht.Rep w (fun l m => if l < s.lmax ∧ m < s.mmax then Complex.I * m * c l m else c l m) :=
  ⟨_, h.partial_phi_eq J (Rep.len h hr) ho, phiP_rep h hrt hr⟩

/-- C24, partial: holds for the fields without content in `l=nl` and `m=nm`. -/
theorem C24_partial_phi_partial (h : s.Wf) (hrt : s.sht.RoundTrip) (J : Junk (Cx CR)) {v out : List CR}
    {c : ℕ → ℕ → ℂ} (hr : s.sht.Rep v c) (ho : out.length = s.nSph)
    (hband : ∀ l m, s.sht.Res l m → (l = s.lmax ∨ m = s.mmax) → c l m = 0) :
    ∃ w, s.partial_phi J v out = .ok w ∧ s.sht.Rep w (fun l m => Complex.I * m * c l m) := by
  obtain ⟨w, h1, h2⟩ := C24_action h hrt J hr ho
  refine ⟨w, h1, Rep.congr h2 fun l m hres => ?_⟩
  split_ifs with hc
  · rfl
  · have h3 := hres.2
    rw [h.api.lmax_eq, h.api.mmax_eq] at h3
    rw [hband l m hres (by omega)]
    simp

/-- C24, partial: an axisymmetric field without top-degree content has zero azimuthal derivative (`nm≥1`). -/
theorem C24_axisymmetric_partial (h : s.Wf) (hrt : s.sht.RoundTrip) (hm : 1 ≤ s.mmax) (J : Junk (Cx CR))
    {v out : List CR} {c : ℕ → ℕ → ℂ} (hr : s.sht.Rep v c) (ho : out.length = s.nSph)
    (haxi : ∀ l m, m ≠ 0 → c l m = 0) (htop : c s.lmax 0 = 0) :
    ∃ w, s.partial_phi J v out = .ok w ∧ s.sht.Rep w (fun _ _ => 0) := by
  obtain ⟨w, h1, h2⟩ := C24_partial_phi_partial h hrt J hr ho (by
    intro l m _ hor
    by_cases h0 : m = 0
    · subst h0
      rcases hor with hor | hor
      · rw [hor, htop]
      · omega
    · exact haxi l m h0)
  refine ⟨w, h1, Rep.congr h2 fun l m _ => ?_⟩
  by_cases h0 : m = 0
  · simp [h0]
  · simp [haxi l m h0]

/-- C24 fails for the top degree: the axisymmetric mode `(nl,0)` is returned as its own azimuthal derivative. -/
theorem C24_top_degree_violated (h : s.Wf) (hrt : s.sht.RoundTrip) (J : Junk (Cx CR))
    {out : List CR} (ho : out.length = s.nSph) :
    ∃ v c w, s.sht.Rep v c ∧ (∀ l m, m ≠ 0 → c l m = 0) ∧ s.partial_phi J v out = .ok w ∧ s.sht.Rep w c ∧
      ¬ s.sht.Rep w (fun _ _ => 0) := by
  let c : ℕ → ℕ → ℂ := fun l m => if l = s.lmax ∧ m = 0 then 1 else 0
  obtain ⟨v, hv⟩ := exists_rep h c (by intro l; simp only [c]; split_ifs <;> simp)
  obtain ⟨w, h1, h2⟩ := C24_action h hrt J hv ho
  have h3 : s.sht.Rep w c := Rep.congr h2 fun l m _ => by
    simp only [c]
    split_ifs with a b
    · omega
    · simp
    · rfl
    · rfl
  refine ⟨v, c, w, hv, ?_, h1, h3, fun h4 => ?_⟩
  · intro l m hm
    simp [c, hm]
  · have h5 := Rep.unique hrt h3 h4 (l := s.lmax) (m := 0)
      ⟨Nat.zero_le _, le_of_eq h.api.lmax_eq.symm, Nat.zero_le _⟩
    simp [c] at h5

/-! ### C25 ladder operators -/

theorem Sphere.Wf.dense (h : s.Wf) (hm : s.lmax ≤ s.mmax + 1) : s.lmax ^ 2 ≤ s.sht.ncp := by
  rw [h.ncp_eq]
  have : s.lmax ^ 2 ≤ (s.mmax + 1) ^ 2 := Nat.pow_le_pow_left hm 2
  omega

theorem IsCoefsC.congr {q : List (Cx CR)} {c c' : ℕ → ℤ → ℂ} (hq : s.sht.IsCoefsC q c) (he : ∀ l m, s.sht.ResC l m → c l m = c' l m) :
    s.sht.IsCoefsC q c' := ⟨hq.1, fun l m hr => by rw [hq.2 l m hr, he l m hr]⟩

/-- C25: `raise` and `lower` are the angular-momentum ladder on every degree below the top one (and leave the top
degree unchanged); all factors are formed from the original coefficients and the unsigned arithmetic of the code
gives the mathematical factors.  (All orders, or all but the highest one, are kept; C82 is about the other cases.) -/
theorem C25_ladder (h : s.Wf) (hrt : s.sht.RoundTrip) (hm : s.lmax ≤ s.mmax + 1) (J : Junk (Cx CR)) {v : List CR} {out : List (Cx CR)}
    {c : ℕ → ℤ → ℂ} (hr : s.sht.RepC (v.map Cx.ofRe) c) (ho : out.length = s.nSph) :
    (∃ w, s.raise J v out = .ok w ∧ s.sht.RepC w (raised s.lmax c)) ∧
    (∃ w, s.lower J v out = .ok w ∧ s.sht.RepC w (lowered s.lmax c)) := by
  have hv : v.length = s.nSph := by have := RepC.len h hr; simpa using this
  have hq := hrt.cplx _ _ hr
  have hG : ∀ l m, s.sht.ResC l m → raisedG s.lmax s.mmax c l m = raised s.lmax c l m ∧ loweredG s.lmax s.mmax c l m = lowered s.lmax c l m := by
    intro l m hr
    have h3 := hr.2.2
    rw [h.api.mmax_eq] at h3
    exact ladderG_eq hm (by rw [← h.api.lmax_eq]; exact hr.1) hr.2.1 h3 c
  exact ⟨⟨_, h.raise_eq J hv ho, _, IsCoefsC.congr (raiseP_coefs h hq) fun l m hr => (hG l m hr).1, rfl⟩,
    ⟨_, h.lower_eq (h.dense hm) J hv ho, _, IsCoefsC.congr (lowerP_coefs h (h.dense hm) hq) fun l m hr => (hG l m hr).2, rfl⟩⟩

/-! ### C27 power spectrum -/

/-- power of degree `l` of a real field: the sum over `m=-l..l`, using `|f_{l,-m}|=|f_{lm}|` -/
noncomputable def power (mtop : ℕ) (c : ℕ → ℕ → ℂ) (l : ℕ) : ℝ :=
  Complex.normSq (c l 0) + 2 * ∑ m ∈ Finset.Icc 1 (min l mtop), Complex.normSq (c l m)

theorem powAcc_fin (h : s.Wf) {q : List (Cx CR)} {c : ℕ → ℕ → ℂ} (hq : s.sht.IsCoefs q c) {l : ℕ} (hl : l ≤ s.lmax) :
    ∀ k, k ≤ l → k ≤ s.mmax →
      s.powAcc q l k = fin (Complex.normSq (c l 0) + 2 * ∑ m ∈ Finset.Icc 1 k, Complex.normSq (c l m)) := by
  have hn : ∀ z, Sphere.nrm2 (toCx z) = fin (Complex.normSq z) := by
    intro z
    simp only [Sphere.nrm2, toCx, fin_pown, fin_add, Complex.normSq_apply]
    congr 1; ring
  intro k
  induction k with
  | zero =>
    intro _ _
    unfold Sphere.powAcc
    rw [hq.2 l 0 ⟨Nat.zero_le _, by rw [h.api.lmax_eq]; exact hl, Nat.zero_le _⟩, hn]
    simp
  | succ k ih =>
    intro h1 h2
    unfold Sphere.powAcc
    rw [ih (by omega) (by omega), hq.2 l (k + 1) ⟨h1, by rw [h.api.lmax_eq]; exact hl, by rw [h.api.mmax_eq]; exact h2⟩,
      hn, fin_ofNat', fin_mul, fin_add]
    congr 1
    rw [Finset.sum_Icc_succ_top (by omega)]
    ring

/-- What `power_spectrum` returns for every representable field: entry `l` counts the orders `|m|<nm` (it is the
power up to `m=nm-1`). -/
theorem C27_action (h : s.Wf) (hrt : s.sht.RoundTrip) (J : Junk (Cx CR)) {v p : List CR} {c : ℕ → ℕ → ℂ}
    (hr : s.sht.Rep v c) (hp : p.length = s.lmax) :
    ∃ w, s.power_spectrum J v p = .ok w ∧ w.length = s.lmax ∧
      ∀ l, l < s.lmax → gv w l = fin (power (s.mmax - 1) c l) := by
  have hq := hrt.real v c hr
  refine ⟨_, h.power_spectrum_eq J (Rep.len h hr) hp, by simp [Sphere.powP], ?_⟩
  intro l hl
  unfold Sphere.powP
  rw [gv_tab hl, powAcc_fin h hq (by omega) _ (by omega) (by omega)]
  unfold power
  rw [show min (l + 1) s.mmax - 1 = min l (s.mmax - 1) by omega]

/-- C27, partial: for a field without content in the top order `m=nm`, entry `l` is the sum over all `m=-l..l` of
`|f_lm|^2`. -/
theorem C27_sum_partial (h : s.Wf) (hrt : s.sht.RoundTrip) (J : Junk (Cx CR)) {v p : List CR} {c : ℕ → ℕ → ℂ}
    (hr : s.sht.Rep v c) (hp : p.length = s.lmax) (hband : ∀ l, c l s.mmax = 0 ∨ s.mmax = 0) :
    ∃ w, s.power_spectrum J v p = .ok w ∧ ∀ l, l < s.lmax →
      gv w l = fin (Complex.normSq (c l 0) + 2 * ∑ m ∈ Finset.Icc 1 (min l s.mmax), Complex.normSq (c l m)) := by
  obtain ⟨w, h1, _, h2⟩ := C27_action h hrt J hr hp
  refine ⟨w, h1, fun l hl => ?_⟩
  rw [h2 l hl]
  unfold power
  congr 3
  by_cases h0 : min l (s.mmax - 1) = min l s.mmax
  · rw [h0]
  · have e : min l s.mmax = min l (s.mmax - 1) + 1 := by omega
    rw [e, Finset.sum_Icc_succ_top (by omega)]
    have : min l (s.mmax - 1) + 1 = s.mmax := by omega
    rw [this]
    rcases hband l with hb | hb
    · rw [hb]; simp
    · omega

/-- C27: every entry is non-negative and scaling the field by `a` scales the spectrum by `a^2`, for every
representable field. -/
theorem C27_nonneg_quadratic (h : s.Wf) (hrt : s.sht.RoundTrip) (J : Junk (Cx CR)) {v v' p : List CR}
    {c : ℕ → ℕ → ℂ} (a : ℝ) (hr : s.sht.Rep v c) (hr' : s.sht.Rep v' (fun l m => a * c l m))
    (hp : p.length = s.lmax) :
    ∃ w w', s.power_spectrum J v p = .ok w ∧ s.power_spectrum J v' p = .ok w' ∧ ∀ l, l < s.lmax →
      ∃ x, gv w l = fin x ∧ 0 ≤ x ∧ gv w' l = fin (a ^ 2 * x) := by
  obtain ⟨w, h1, _, h2⟩ := C27_action h hrt J hr hp
  obtain ⟨w', h1', _, h2'⟩ := C27_action h hrt J hr' hp
  refine ⟨w, w', h1, h1', fun l hl => ⟨_, h2 l hl, ?_, ?_⟩⟩
  · unfold power
    exact add_nonneg (Complex.normSq_nonneg _)
      (mul_nonneg (by norm_num) (Finset.sum_nonneg fun _ _ => Complex.normSq_nonneg _))
  · rw [h2' l hl]
    congr 1
    unfold power
    simp only [Complex.normSq_mul, Complex.normSq_ofReal, ← Finset.mul_sum]
    ring

/-- C27, partial: for fields without content in `l=nl` and `m=nm`, a vanishing spectrum means a vanishing field. -/
theorem C27_faithful_partial (h : s.Wf) (hrt : s.sht.RoundTrip) (J : Junk (Cx CR)) {v p w : List CR} {c : ℕ → ℕ → ℂ}
    (hr : s.sht.Rep v c) (hp : p.length = s.lmax)
    (hband : ∀ l m, s.sht.Res l m → (l = s.lmax ∨ (m = s.mmax ∧ 1 ≤ s.mmax)) → c l m = 0)
    (hw : s.power_spectrum J v p = .ok w) (hz : ∀ l, l < s.lmax → gv w l = fin 0) : s.sht.Rep v (fun _ _ => 0) := by
  obtain ⟨w', h1, _, h2⟩ := C27_action h hrt J hr hp
  rw [h1] at hw
  cases hw
  refine Rep.congr hr fun l m hres => ?_
  have hres' := hres
  rw [Shtns.Res, h.api.lmax_eq, h.api.mmax_eq] at hres
  by_cases htop : l = s.lmax ∨ (m = s.mmax ∧ 1 ≤ s.mmax)
  · exact hband l m hres' htop
  · have hl : l < s.lmax := by omega
    have := (h2 l hl).symm.trans (hz l hl)
    rw [fin_inj] at this
    unfold power at this
    have hs : 0 ≤ ∑ m ∈ Finset.Icc 1 (min l (s.mmax - 1)), Complex.normSq (c l m) :=
      Finset.sum_nonneg fun _ _ => Complex.normSq_nonneg _
    have h0 := Complex.normSq_nonneg (c l 0)
    by_cases hm : m = 0
    · subst hm
      exact Complex.normSq_eq_zero.mp (by linarith)
    · have hs0 : ∑ m ∈ Finset.Icc 1 (min l (s.mmax - 1)), Complex.normSq (c l m) = 0 := by linarith
      rw [Finset.sum_eq_zero_iff_of_nonneg (fun _ _ => Complex.normSq_nonneg _)] at hs0
      exact Complex.normSq_eq_zero.mp (hs0 m (by rw [Finset.mem_Icc]; omega))

/-- C27 fails in the top degree: the non-zero field `Y_{nl,0}` has an identically zero spectrum. -/
theorem C27_top_degree_dropped (h : s.Wf) (hrt : s.sht.RoundTrip) (J : Junk (Cx CR)) {p : List CR}
    (hp : p.length = s.lmax) :
    ∃ v c w, s.sht.Rep v c ∧ ¬ s.sht.Rep v (fun _ _ => 0) ∧ s.power_spectrum J v p = .ok w ∧
      ∀ l, l < s.lmax → gv w l = fin 0 := by
  let c : ℕ → ℕ → ℂ := fun l m => if l = s.lmax ∧ m = 0 then 1 else 0
  obtain ⟨v, hv⟩ := exists_rep h c (by intro l; simp only [c]; split_ifs <;> simp)
  obtain ⟨w, h1, _, h2⟩ := C27_action h hrt J hv hp
  refine ⟨v, c, w, hv, fun h4 => ?_, h1, fun l hl => ?_⟩
  · have h5 := Rep.unique hrt hv h4 (l := s.lmax) (m := 0)
      ⟨Nat.zero_le _, le_of_eq h.api.lmax_eq.symm, Nat.zero_le _⟩
    simp [c] at h5
  · rw [h2 l hl]
    congr 1
    have hz : ∀ m, c l m = 0 := fun m => by simp only [c]; rw [if_neg (by omega)]
    unfold power
    simp [hz]

/-- C27 fails in the top order: with `nm≥1`, the field `2 Re Y_{nm,nm}` has an identically zero spectrum. -/
theorem C27_top_order_dropped (h : s.Wf) (hrt : s.sht.RoundTrip) (J : Junk (Cx CR)) {p : List CR}
    (hp : p.length = s.lmax) (hm : 1 ≤ s.mmax) :
    ∃ v c w, s.sht.Rep v c ∧ ¬ s.sht.Rep v (fun _ _ => 0) ∧ s.power_spectrum J v p = .ok w ∧
      ∀ l, l < s.lmax → gv w l = fin 0 := by
  let c : ℕ → ℕ → ℂ := fun l m => if l = s.mmax ∧ m = s.mmax then 1 else 0
  obtain ⟨v, hv⟩ := exists_rep h c (by intro l; simp only [c]; rw [if_neg (by omega)]; simp)
  obtain ⟨w, h1, _, h2⟩ := C27_action h hrt J hv hp
  refine ⟨v, c, w, hv, fun h4 => ?_, h1, fun l hl => ?_⟩
  · have h5 := Rep.unique hrt hv h4 (l := s.mmax) (m := s.mmax)
      ⟨le_refl _, by rw [h.api.lmax_eq]; exact h.api.m_le, le_of_eq h.api.mmax_eq.symm⟩
    simp [c] at h5
  · rw [h2 l hl]
    congr 1
    unfold power
    have h0 : c l 0 = 0 := by simp only [c]; rw [if_neg (by omega)]
    rw [h0, Finset.sum_eq_zero]
    · simp
    · intro m hm
      rw [Finset.mem_Icc] at hm
      have : c l m = 0 := by simp only [c]; rw [if_neg (by omega)]
      rw [this]; simp

/-! ### C28 requested harmonic -/

/-- C28: for a resolved `(l,m)`, `compute_ylm` returns the field whose only coefficient is 1 at `(l,m)`. -/
theorem C28_unit_coefficient (h : s.Wf) (J : Junk (Cx CR)) {l m : ℕ} (hr : s.sht.Res l m) :
    ∃ w, s.compute_ylm J l m = .ok w ∧ s.sht.Rep w (fun l' m' => if l' = l ∧ m' = m then 1 else 0) := by
  refine ⟨_, h.compute_ylm_eq J hr, ?_, _, ⟨by simp [Sphere.unitLM], ?_⟩, rfl⟩
  · intro l' _
    dsimp only
    split_ifs <;> simp
  · intro l' m' hr'
    unfold Sphere.unitLM
    rw [h.api.cf_mkLM hr']
    beta_reduce
    by_cases hc : l' = l ∧ m' = m
    · rw [if_pos hc, if_pos hc]; simp [toCx]
    · rw [if_neg hc, if_neg hc]; simp [toCx]

/-- C28: out-of-contract requests are not detected.  A degree one above the top silently gives another harmonic
(`(nl+1,0)` gives `(1,1)`), and indices beyond the array are out-of-bounds writes. -/
theorem C28_out_of_contract (h : s.Wf) (J : Junk (Cx CR)) :
    (1 ≤ s.mmax → s.compute_ylm J (s.lmax + 1) 0 = s.compute_ylm J 1 1) ∧
    (∀ l m, s.sht.nlm ≤ s.sht.LM l m → s.compute_ylm J l m = .error .ub) ∧
    (∀ l, s.sht.nlm ≤ l → s.compute_ylm J l 0 = .error .ub) := by
  have hub : ∀ l m, s.sht.nlm ≤ s.sht.LM l m → s.compute_ylm J l m = .error .ub := by
    intro l m hlm
    unfold Sphere.compute_ylm
    rw [wr_ub (by simpa [h.nYlm_eq] using hlm)]
    rfl
  refine ⟨fun _ => ?_, hub, fun l hl => hub l 0 ?_⟩
  · unfold Sphere.compute_ylm
    have : s.sht.LM (s.lmax + 1) 0 = s.sht.LM 1 1 := by
      unfold Shtns.LM
      rw [h.api.lmax_eq]
      omega
    rw [this]
  · unfold Shtns.LM
    simpa using hl

/-! ### C29 low-pass filter -/

/-- the documented damping factor of the mode `(l,m)` -/
noncomputable def damp (L l m : ℕ) : ℝ := Real.exp (-40 * (l / L) ^ 16) * Real.exp (-40 * (m / L) ^ 16)

theorem filtP_rep (h : s.Wf) (hrt : s.sht.RoundTrip) {v : List CR} {c : ℕ → ℕ → ℂ} (hr : s.sht.Rep v c) :
    s.sht.Rep (s.filtP v) (fun l m => if l < s.lmax ∧ m < s.mmax then (damp s.lmax l m : ℂ) * c l m else c l m) := by
  apply thruP_rep h hrt (g := fun l m z => (damp s.lmax l m : ℂ) * z) _ _ hr
  · intro l m z ht
    have h0 : (s.lmax : ℝ) ≠ 0 := by
      have := ht.1
      exact_mod_cast (by omega : s.lmax ≠ 0)
    simp only [Cx.smul, toCx, Sphere.lowF, fin_dbl, fin_ofNat', fin_neg, fin_div _ _ h0, fin_pown, fin_mul, fin_exp]
    rw [Complex.re_ofReal_mul, Complex.im_ofReal_mul]
    unfold damp
    congr 2 <;> ring
  · intro l z hz
    rw [Complex.im_ofReal_mul, hz, mul_zero]

/-- What `filter` does to every representable field. -/
theorem C29_action (h : s.Wf) (hrt : s.sht.RoundTrip) (J : Junk (Cx CR)) {v : List CR} {c : ℕ → ℕ → ℂ}
    (hr : s.sht.Rep v c) :
    ∃ w, s.filter J v = .ok w ∧
      s.sht.Rep w (fun l m => if l < s.lmax ∧ m < s.mmax then (damp s.lmax l m : ℂ) * c l m else c l m) :=
  ⟨_, h.filter_eq J (Rep.len h hr), filtP_rep h hrt hr⟩

theorem damp_pos (L l m : ℕ) : 0 < damp L l m := mul_pos (Real.exp_pos _) (Real.exp_pos _)

theorem damp_le_one (L l m : ℕ) : damp L l m ≤ 1 := by
  unfold damp
  have h : ∀ k : ℕ, Real.exp (-40 * ((k : ℝ) / L) ^ 16) ≤ 1 := fun k => by
    rw [Real.exp_le_one_iff]
    have : (0 : ℝ) ≤ ((k : ℝ) / L) ^ 16 := by positivity
    linarith
  calc _ ≤ (1 : ℝ) * 1 := mul_le_mul (h l) (h m) (Real.exp_pos _).le (by norm_num)
    _ = 1 := by ring

theorem damp_anti {L l l' m m' : ℕ} (hl : l ≤ l') (hm : m ≤ m') : damp L l' m' ≤ damp L l m := by
  unfold damp
  have h : ∀ {a b : ℕ}, a ≤ b → Real.exp (-40 * ((b : ℝ) / L) ^ 16) ≤ Real.exp (-40 * ((a : ℝ) / L) ^ 16) := by
    intro a b hab
    rw [Real.exp_le_exp]
    have h1 : ((a : ℝ) / L) ^ 16 ≤ ((b : ℝ) / L) ^ 16 := by
      apply pow_le_pow_left₀ (by positivity)
      exact div_le_div_of_nonneg_right (by exact_mod_cast hab) (by positivity)
    linarith
  exact mul_le_mul (h hl) (h hm) (Real.exp_pos _).le (Real.exp_pos _).le

/-- C29: each coefficient is multiplied by a factor in (0,1] that is 1 for the mean, so no mode's power grows; the
factor is the documented one for `l<nl`, `m<nm`, where it does not increase with `l` or `m`. -/
theorem C29_only_damps (h : s.Wf) (hrt : s.sht.RoundTrip) (J : Junk (Cx CR)) {v : List CR} {c : ℕ → ℕ → ℂ}
    (hr : s.sht.Rep v c) :
    ∃ (w : List CR) (d : ℕ → ℕ → ℝ), s.filter J v = .ok w ∧ s.sht.Rep w (fun l m => (d l m : ℂ) * c l m) ∧
      (∀ l m, 0 < d l m ∧ d l m ≤ (1 : ℝ)) ∧ d 0 0 = 1 ∧
      (∀ l m, Complex.normSq ((d l m : ℂ) * c l m) ≤ Complex.normSq (c l m)) ∧
      (∀ l m, l < s.lmax → m < s.mmax →
        d l m = Real.exp (-40 * (l / s.lmax) ^ 16) * Real.exp (-40 * (m / s.lmax) ^ 16)) ∧
      (∀ l m l' m', l ≤ l' → m ≤ m' → l' < s.lmax → m' < s.mmax → d l' m' ≤ d l m) := by
  obtain ⟨w, h1, h2⟩ := C29_action h hrt J hr
  let d : ℕ → ℕ → ℝ := fun l m => if l < s.lmax ∧ m < s.mmax then damp s.lmax l m else 1
  have hd : ∀ l m, 0 < d l m ∧ d l m ≤ (1 : ℝ) := by
    intro l m
    simp only [d]
    split_ifs
    · exact ⟨damp_pos _ _ _, damp_le_one _ _ _⟩
    · norm_num
  refine ⟨w, d, h1, Rep.congr h2 ?_, hd, ?_, ?_, ?_, ?_⟩
  · intro l m _
    simp only [d]
    split_ifs <;> simp
  · simp only [d]
    split_ifs
    · simp [damp]
    · rfl
  · intro l m
    rw [Complex.normSq_mul, Complex.normSq_ofReal]
    have h3 : d l m * d l m ≤ 1 := by have := hd l m; nlinarith
    have := Complex.normSq_nonneg (c l m)
    nlinarith
  · intro l m hl hm
    simp only [d]
    rw [if_pos ⟨hl, hm⟩]
    rfl
  · intro l m l' m' a b hl hm
    simp only [d]
    rw [if_pos ⟨hl, hm⟩, if_pos ⟨by omega, by omega⟩]
    exact damp_anti a b

/-- C29, partial: for fields without content in `l=nl` and `m=nm` the factor is the documented one on every mode.
Missing: the top modes, which the documentation wants damped most. -/
theorem C29_filter_partial (h : s.Wf) (hrt : s.sht.RoundTrip) (J : Junk (Cx CR)) {v : List CR} {c : ℕ → ℕ → ℂ}
    (hr : s.sht.Rep v c) (hband : ∀ l m, s.sht.Res l m → (l = s.lmax ∨ m = s.mmax) → c l m = 0) :
    ∃ w, s.filter J v = .ok w ∧ s.sht.Rep w (fun l m =>
      ((Real.exp (-40 * (l / s.lmax) ^ 16) * Real.exp (-40 * (m / s.lmax) ^ 16) : ℝ) : ℂ) * c l m) := by
  obtain ⟨w, h1, h2⟩ := C29_action h hrt J hr
  refine ⟨w, h1, Rep.congr h2 fun l m hres => ?_⟩
  have h3 := hres.2
  rw [h.api.lmax_eq, h.api.mmax_eq] at h3
  split_ifs with hc
  · rfl
  · rw [hband l m hres (by omega)]
    simp

/-- C29 fails in the top modes: the highest resolved degree and order, which should be damped most, are not damped at
all. -/
theorem C29_top_modes_undamped (h : s.Wf) (hrt : s.sht.RoundTrip) (J : Junk (Cx CR)) {v : List CR} {c : ℕ → ℕ → ℂ}
    (hr : s.sht.Rep v c) (htop : ∀ l m, c l m ≠ 0 → l = s.lmax ∨ m = s.mmax) :
    ∃ w, s.filter J v = .ok w ∧ s.sht.Rep w c := by
  obtain ⟨w, h1, h2⟩ := C29_action h hrt J hr
  refine ⟨w, h1, Rep.congr h2 fun l m _ => ?_⟩
  split_ifs with hc
  · by_cases h0 : c l m = 0
    · simp [h0]
    · have := htop l m h0
      omega
  · rfl

end SFK
