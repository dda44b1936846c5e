import Verif.Props.SphereMath
/-
C82: the ladder operators when the orders are truncated below the degrees (`nm<nl`, as in runscript_template.py: `nl=20`, `nm=18`);
C22, the case in which `lower` reads memory nobody wrote.
-/
namespace SFK
open Scalar CR

variable {s : Sphere CR}

/-- **C82**, orders truncated at most one below the degrees (`nm=nl` or `nm=nl-1`): `raise` and `lower` are the ladder operators below
the top degree, for every field. -/
theorem C82_ladder_partial (h : s.Wf) (hrt : s.sht.RoundTrip) (hm : s.lmax ≤ s.mmax + 1) (J : Junk (Cx CR)) {v : List CR}
    {out : List (Cx CR)} {c : ℕ → ℤ → ℂ} (hr : s.sht.RepC (v.map Cx.ofRe) c) (ho : out.length = s.nSph) :
    (∃ w, s.raise J v out = .ok w ∧ s.sht.RepC w (raised s.lmax c)) ∧
    (∃ w, s.lower J v out = .ok w ∧ s.sht.RepC w (lowered s.lmax c)) := C25_ladder h hrt hm J hr ho

/-- **C82**, orders truncated further: still so, for the fields without content in the degrees of which only some orders are kept, as long
as the loops stay within the coefficients the library stores. -/
theorem C82_complete_degrees_partial (h : s.Wf) (hrt : s.sht.RoundTrip) (hd : s.lmax ^ 2 ≤ s.sht.ncp) (J : Junk (Cx CR)) {v : List CR}
    {out : List (Cx CR)} {c : ℕ → ℤ → ℂ} (hr : s.sht.RepC (v.map Cx.ofRe) c) (hc : ∀ l m, s.mmax < l → l ≤ s.lmax → c l m = 0)
    (ho : out.length = s.nSph) :
    (∃ w, s.raise J v out = .ok w ∧ s.sht.RepC w (raised s.lmax c)) ∧
    (∃ w, s.lower J v out = .ok w ∧ s.sht.RepC w (lowered s.lmax c)) := by
  have hv : v.length = s.nSph := by have := RepC.len h hr; simpa using this
  have hq := hrt.cplx _ _ hr
  have hG : ∀ l m, s.sht.ResC l m → raisedG s.lmax s.mmax c l m = raised s.lmax c l m ∧ loweredG s.lmax s.mmax c l m = lowered s.lmax c l m := by
    intro l m hr
    have h3 := hr.2.2
    rw [h.api.mmax_eq] at h3
    have hp := Shtns.ncp_prow (s := s.sht) h.api.mmax_le
    rw [h.api.lmax_eq, h.api.mmax_eq] at hp
    exact ladderG_resolved (by rw [← h.api.lmax_eq]; exact hr.1) hr.2.1 h3 (by rw [← hp, ← pow_two]; exact hd) hc
  exact ⟨⟨_, h.raise_eq J hv ho, _, IsCoefsC.congr (raiseP_coefs h hq) fun l m hr => (hG l m hr).1, rfl⟩,
    ⟨_, h.lower_eq hd J hv ho, _, IsCoefsC.congr (lowerP_coefs h hd hq) fun l m hr => (hG l m hr).2, rfl⟩⟩

/-- **C82**, orders truncated further (`nm≤nl-2`): in degree `nm+1` the code addresses the coefficients one place off.  `raise` multiplies
the order-`m` coefficient with the factor that belongs to lowering; and if `nm=nl-2` the highest order of degree `nm+1` ends up in the lowest
order of degree `nl`. -/
theorem C82_misaddressed (h : s.Wf) (hrt : s.sht.RoundTrip) (hm : s.mmax + 2 ≤ s.lmax) (J : Junk (Cx CR)) {v : List CR}
    {out : List (Cx CR)} {c : ℕ → ℤ → ℂ} (hr : s.sht.RepC (v.map Cx.ofRe) c) (ho : out.length = s.nSph) :
    ∃ w c', s.raise J v out = .ok w ∧ s.sht.RepC w c' ∧
      (∀ m : ℤ, -s.mmax ≤ m → m < s.mmax → c' (s.mmax + 1) (m + 1) = (Real.sqrt ((s.mmax + 2 - m) * (s.mmax + 1 + m)) : ℝ) * c (s.mmax + 1) m) ∧
      (s.lmax = s.mmax + 2 → c' s.lmax (-s.mmax) = (Real.sqrt (2 * (2 * s.mmax + 1)) : ℝ) * c (s.mmax + 1) s.mmax) := by
  have hv : v.length = s.nSph := by have := RepC.len h hr; simpa using this
  have hq := hrt.cplx _ _ hr
  refine ⟨_, raisedG s.lmax s.mmax c, h.raise_eq J hv ho, ⟨_, raiseP_coefs h hq, rfl⟩, ?_, ?_⟩
  · intro m hm1 hm2
    obtain ⟨j, hj⟩ : ∃ j : ℕ, (j : ℤ) = m + s.mmax := ⟨(m + s.mmax).toNat, by omega⟩
    have hp : (pidx s.mmax (s.mmax + 1) (m + 1)).toNat = (s.mmax + 1) * (s.mmax + 1) + (j + 1) := by
      have := pidx_toNat s.mmax (s.mmax + 1) (j + 1)
      rw [Nat.min_eq_right (by omega), prow_low (Nat.le_refl _)] at this
      rw [← this]
      congr 2
      push_cast
      omega
    have hs : ((s.mmax + 1) * (s.mmax + 1) + (j + 1)).sqrt = s.mmax + 1 := Sphere.sqrt_block (Nat.le_add_right _ _) (by omega)
    have hpv : prevC s.mmax (s.mmax + 1) (m + 1) = (s.mmax + 1, m) := by
      unfold prevC
      rw [Nat.min_eq_right (by omega), if_neg (by omega)]
      simp
    unfold raisedG
    rw [hp, hs, if_pos (by omega), if_neg (by omega), hpv]
    have hjr : (j : ℝ) = m + s.mmax := by exact_mod_cast hj
    congr 3
    push_cast
    rw [hjr]
    ring_nf
  · intro hl
    have hp : (pidx s.mmax s.lmax (-s.mmax)).toNat = (s.mmax + 1) * (s.mmax + 1) + (2 * s.mmax + 1) := by
      have := pidx_toNat s.mmax s.lmax 0
      rw [Nat.min_eq_right (by omega), show s.lmax = s.mmax + 1 + 1 by omega, prow_high] at this
      rw [hl, show s.mmax + 2 = s.mmax + 1 + 1 by omega]
      simpa using this
    have hs : ((s.mmax + 1) * (s.mmax + 1) + (2 * s.mmax + 1)).sqrt = s.mmax + 1 := Sphere.sqrt_block (Nat.le_add_right _ _) (by omega)
    have hpv : prevC s.mmax s.lmax (-s.mmax) = (s.mmax + 1, (s.mmax : ℤ)) := by
      unfold prevC
      rw [Nat.min_eq_right (by omega), if_pos rfl, Nat.min_eq_right (by omega), hl]
      rfl
    unfold raisedG
    rw [hp, hs, if_pos (by omega), if_neg (by omega), hpv]
    congr 3
    push_cast
    ring_nf

/-- **C82**: ... so with `nm≤nl-2` `raise` is not the ladder operator on any field with a non-axisymmetric part in degree `nm+1` (orders
`0<|m|<nm`). -/
theorem C82_not_ladder (h : s.Wf) (hrt : s.sht.RoundTrip) (hm : s.mmax + 2 ≤ s.lmax) (J : Junk (Cx CR)) {v : List CR}
    {out : List (Cx CR)} {c : ℕ → ℤ → ℂ} (hr : s.sht.RepC (v.map Cx.ofRe) c) (ho : out.length = s.nSph)
    {m : ℤ} (h1 : -s.mmax ≤ m) (h2 : m < s.mmax) (h0 : m ≠ 0) (hc : c (s.mmax + 1) m ≠ 0) :
    ∃ w, s.raise J v out = .ok w ∧ ¬ s.sht.RepC w (raised s.lmax c) := by
  obtain ⟨w, c', hw, hrep, hfac, _⟩ := C82_misaddressed h hrt hm J hr ho
  refine ⟨w, hw, fun hbad => ?_⟩
  have hmm := h.api.mmax_eq
  have hll := h.api.lmax_eq
  have hr1 : s.sht.ResC (s.mmax + 1) (m + 1) := ⟨by omega, by rw [abs_le]; push_cast; omega, by rw [abs_le]; omega⟩
  have e1 := (hrt.cplx _ _ hrep).2 _ _ hr1
  rw [(hrt.cplx _ _ hbad).2 _ _ hr1] at e1
  have e2 := toCx_inj e1
  rw [hfac m h1 h2] at e2
  unfold raised at e2
  rw [if_pos (by omega), if_neg (by push_cast; omega), show m + 1 - 1 = m by ring] at e2
  have e3 := mul_right_cancel₀ hc e2
  have e4 : Real.sqrt (((s.mmax + 1 : ℕ) - ((m + 1 : ℤ) : ℝ) + 1) * ((s.mmax + 1 : ℕ) + ((m + 1 : ℤ) : ℝ)))
      = Real.sqrt ((s.mmax + 2 - m) * (s.mmax + 1 + m)) := by exact_mod_cast e3
  have hm1 : (-(s.mmax : ℝ)) ≤ m := by exact_mod_cast h1
  have hm2 : (m : ℝ) + 1 ≤ s.mmax := by exact_mod_cast h2
  rw [Real.sqrt_inj (by push_cast; apply mul_nonneg <;> linarith) (by apply mul_nonneg <;> linarith)] at e4
  push_cast at e4
  have : (m : ℝ) = 0 := by nlinarith
  exact h0 (by exact_mod_cast this)

/-! ### C22: memory nobody wrote -/

/-- garbage in which every number is `z` -/
def Junk.all {β : Type} (z : β) : Junk β := fun _ _ => z

/-- the factor with which the first entry nobody wrote enters the last coefficient the library reads -/
noncomputable def junkFactor (ncp : ℕ) : ℝ :=
  Real.sqrt ((((ncp - 1 - (ncp - 1).sqrt * (ncp - 1).sqrt : ℕ) : ℝ) + 1) * (2 * (ncp - 1).sqrt - ((ncp - 1 - (ncp - 1).sqrt * (ncp - 1).sqrt : ℕ) : ℝ)))

theorem junkFactor_ne {ncp : ℕ} (h0 : 0 < ncp) (hsq : ¬ IsSquare ncp) : junkFactor ncp ≠ 0 := by
  obtain ⟨n, rfl⟩ : ∃ n, ncp = n + 1 := ⟨ncp - 1, by omega⟩
  obtain ⟨b1, b2⟩ := Sphere.block_of_sqrt n
  have hns : n ≠ n.sqrt * n.sqrt + 2 * n.sqrt := by
    intro he
    apply hsq
    exact ⟨n.sqrt + 1, by conv_lhs => rw [he]
                          ring⟩
  unfold junkFactor
  rw [Nat.add_sub_cancel, Real.sqrt_ne_zero']
  have h1 : n - n.sqrt * n.sqrt + 1 ≤ 2 * n.sqrt := by omega
  have h2 : ((n - n.sqrt * n.sqrt : ℕ) : ℝ) + 1 ≤ 2 * n.sqrt := by exact_mod_cast h1
  apply mul_pos
  · positivity
  · linarith

/-- the coefficients `lower` hands to the library when the first entry of the buffer nobody wrote is `z` -/
theorem lowerP_last' (h : s.Wf) (hn : s.sht.ncp < s.lmax ^ 2) (hsq : ¬ IsSquare s.sht.ncp) {q : List (Cx CR)} {c : ℕ → ℤ → ℂ}
    (hq : s.sht.IsCoefsC q c) {J : Junk (Cx CR)} {z : ℂ} (hJ : J [1] s.sht.ncp = toCx z) : ∃ c' : ℕ → ℤ → ℂ,
      s.sht.IsCoefsC ((s.lowerP (q ++ (J.buf 1 ((s.lmax + 1) ^ 2)).drop s.sht.ncp)).take s.sht.ncp) c' ∧
      (∀ l m, s.sht.ResC l m → (pidx s.mmax l m).toNat + 1 < s.sht.ncp → c' l m = loweredG s.lmax s.mmax c l m) ∧
      ∀ l m, s.sht.ResC l m → (pidx s.mmax l m).toNat + 1 = s.sht.ncp → c' l m = junkFactor s.sht.ncp * z := by
  have hle := h.ncp_le
  have hmm := h.api.mmax_eq
  have hll := h.api.lmax_eq
  have hpos : 0 < s.sht.ncp := by rw [h.ncp_eq]; positivity
  obtain ⟨n, hnn⟩ : ∃ n, n + 1 = s.sht.ncp := ⟨s.sht.ncp - 1, by omega⟩
  obtain ⟨b1, b2⟩ := Sphere.block_of_sqrt n
  have hb : n.sqrt < s.lmax := by rw [Sphere.sqrt_lt_iff]; rw [pow_two] at hn; omega
  have hns : n ≠ n.sqrt * n.sqrt + 2 * n.sqrt := by
    intro he
    apply hsq
    exact ⟨n.sqrt + 1, by rw [← hnn]; conv_lhs => rw [he]
                          ring⟩
  have hlt2 : s.sht.ncp < (s.lmax + 1) ^ 2 := by
    have : s.lmax ^ 2 ≤ (s.lmax + 1) ^ 2 := Nat.pow_le_pow_left (by omega) 2
    omega
  have hfac : junkFactor s.sht.ncp = Real.sqrt ((((n - n.sqrt * n.sqrt : ℕ) : ℝ) + 1) * (2 * n.sqrt - ((n - n.sqrt * n.sqrt : ℕ) : ℝ))) := by
    unfold junkFactor
    rw [← hnn, Nat.add_sub_cancel]
  have hjunk : gv (q ++ (J.buf 1 ((s.lmax + 1) ^ 2)).drop s.sht.ncp) s.sht.ncp = toCx z := by
    unfold gv
    rw [List.getElem?_append_right (by rw [hq.1]), hq.1, Nat.sub_self, List.getElem?_drop, Nat.add_zero]
    have := gv_tab (α := Cx CR) (f := J [1]) hlt2
    unfold gv at this
    rw [← hJ]
    exact this
  refine
    ⟨fun l m => if (pidx s.mmax l m).toNat + 1 = s.sht.ncp then
      (junkFactor s.sht.ncp : ℝ) * z else loweredG s.lmax s.mmax c l m,
    ⟨by simp [Sphere.lowerP, hle], fun l m hr => ?_⟩, fun l m _ hk => ?_, fun l m _ hk => ?_⟩
  · have hlt := hr.lt h.api.mmax_le
    have hc := hq.2 l m hr
    unfold Shtns.cfC at hc ⊢
    have hp := fun h0 => nextC_spec h.api.mmax_le hr h0
    rw [gv_take hlt]
    rw [hmm] at hlt hc hp ⊢
    unfold Sphere.lowerP
    rw [gv_tab (by omega)]
    beta_reduce
    by_cases hk : (pidx s.mmax l m).toNat + 1 = s.sht.ncp
    · have hkn : (pidx s.mmax l m).toNat = n := by omega
      rw [if_pos hk, hkn, if_pos hb, if_neg hns, hnn, hjunk, smul_lc (by omega), hfac]
    · rw [if_neg hk]
      unfold loweredG
      rw [Sphere.gv_app (k := (pidx s.mmax l m).toNat) (by rw [hq.1]; exact hlt)]
      have hk1 : (pidx s.mmax l m).toNat + 1 < s.sht.ncp := by omega
      generalize hkd : (pidx s.mmax l m).toNat = k at *
      obtain ⟨b1, b2⟩ := Sphere.block_of_sqrt k
      by_cases h1 : k.sqrt < s.lmax
      · rw [if_pos h1, if_pos h1]
        by_cases h2 : k = k.sqrt * k.sqrt + 2 * k.sqrt
        · rw [if_pos h2, if_pos h2]; simp [toCx]
        · rw [if_neg h2, if_neg h2]
          obtain ⟨p1, p2⟩ := hp hk1
          have := hq.2 _ _ p1
          unfold Shtns.cfC at this
          rw [hmm, p2] at this
          rw [Sphere.gv_app (by rw [hq.1]; exact hk1), this, smul_lc (by omega)]
          congr 4
          rw [Nat.cast_sub b1]; push_cast; ring
      · rw [if_neg h1, if_neg h1, hc]
  · beta_reduce
    rw [if_neg (by omega)]
  · beta_reduce
    rw [if_pos hk]

theorem lowerP_last (h : s.Wf) (hn : s.sht.ncp < s.lmax ^ 2) (hsq : ¬ IsSquare s.sht.ncp) {q : List (Cx CR)} {c : ℕ → ℤ → ℂ}
    (hq : s.sht.IsCoefsC q c) : ∃ k : ℝ, k ≠ 0 ∧ ∀ z : ℂ, ∃ c' : ℕ → ℤ → ℂ,
      s.sht.IsCoefsC ((s.lowerP (q ++ ((Junk.all (toCx z)).buf 1 ((s.lmax + 1) ^ 2)).drop s.sht.ncp)).take s.sht.ncp) c' ∧
      (∀ l m, s.sht.ResC l m → (pidx s.mmax l m).toNat + 1 < s.sht.ncp → c' l m = loweredG s.lmax s.mmax c l m) ∧
      ∀ l m, s.sht.ResC l m → (pidx s.mmax l m).toNat + 1 = s.sht.ncp → c' l m = k * z :=
  ⟨junkFactor s.sht.ncp, junkFactor_ne (by rw [h.ncp_eq]; positivity) hsq, fun z => lowerP_last' h hn hsq hq rfl⟩

theorem lower_junk (h : s.Wf) (J : Junk (Cx CR)) {v : List CR} {out : List (Cx CR)} (hv : v.length = s.nSph) (ho : out.length = s.nSph) :
    s.lower J v out = .ok (s.sht.shToSpatC ((s.lowerP (s.sht.spatToSHC (v.map Cx.ofRe)
      ++ (J.buf 1 ((s.lmax + 1) ^ 2)).drop s.sht.ncp)).take s.sht.ncp)) := by
  unfold Sphere.lower
  rw [h.throughYlmC_eq (fun _ hq => h.lowerLoop_eq hq) (fun _ _ => by simp [Sphere.lowerP]) J hv ho]

/-- **C22**, violated: with the orders truncated so far that the library stores fewer than `lmax^2` coefficients of a complex field (and not a
square number of them), the result of `lower` depends on memory that nobody wrote: for every field there are two contents of that memory for
which the call succeeds with different results. -/
theorem C22_uninitialised_read (h : s.Wf) (hrt : s.sht.RoundTrip) (hn : s.sht.ncp < s.lmax ^ 2) (hsq : ¬ IsSquare s.sht.ncp) {v : List CR}
    {out : List (Cx CR)} {c : ℕ → ℤ → ℂ} (hr : s.sht.RepC (v.map Cx.ofRe) c) (ho : out.length = s.nSph) :
    ∃ J J' w w', s.lower J v out = .ok w ∧ s.lower J' v out = .ok w' ∧ w ≠ w' := by
  have hv : v.length = s.nSph := by have := RepC.len h hr; simpa using this
  have hq := hrt.cplx _ _ hr
  obtain ⟨k, hk, hz⟩ := lowerP_last h hn hsq hq
  obtain ⟨c0, a1, _, a2⟩ := hz 0
  obtain ⟨c1, b1, _, b2⟩ := hz 1
  refine ⟨_, _, _, _, lower_junk h (Junk.all (toCx 0)) hv ho, lower_junk h (Junk.all (toCx 1)) hv ho, fun he => ?_⟩
  have hpos : 0 < s.sht.ncp := by rw [h.ncp_eq]; positivity
  obtain ⟨l, m, hr, hp⟩ := Shtns.pidx_surj (s := s.sht) h.api.mmax_le (k := s.sht.ncp - 1) (by omega)
  rw [h.api.mmax_eq] at hp
  have e0 := (hrt.cplx _ c0 ⟨_, a1, rfl⟩).2 l m hr
  rw [he, (hrt.cplx _ c1 ⟨_, b1, rfl⟩).2 l m hr] at e0
  have := toCx_inj e0
  rw [a2 l m hr (by omega), b2 l m hr (by omega)] at this
  simp [hk] at this

/-- The shipped truncation `nl=20` with four orders less than the template, `nm=14`, is such a case: 399 stored coefficients, while the loop
covers 400.  Every real field on the 36x40 sphere meets the hypotheses. -/
example : ∃ (s : Sphere CR) (x : ℕ → ℝ) (A : ℕ → ℕ → ℕ → ℝ) (v : List CR) (c : ℕ → ℤ → ℂ), s.Wf ∧ s.sht.Math true s.nlat s.nphi x A ∧
    s.lmax = 20 ∧ s.mmax = 14 ∧ s.sht.RoundTrip ∧ s.sht.ncp < s.lmax ^ 2 ∧ ¬ IsSquare s.sht.ncp ∧ s.sht.RepC (v.map Cx.ofRe) c := by
  obtain ⟨s, x, A, hw, hm, h1, h2, h3, h4, _⟩ := exists_sphere true false (L := 20) (M := 14) (nlat := 36) (nphi := 40)
    (by omega) (by omega) (by omega) (by omega)
  obtain ⟨v, hv⟩ := exists_rep hw (fun l m => if l = 2 ∧ m = 1 then 1 + Complex.I else 0) (by intro l; simp)
  have hncp : s.sht.ncp = 399 := by rw [hw.ncp_eq, h1, h2]; norm_num
  refine ⟨s, x, A, v, _, hw, hm, h1, h2, hm.roundTrip hw.api, ?_, ?_, hm.emb hw.api hv⟩
  · rw [hncp, h1]; norm_num
  · rw [hncp]
    rintro ⟨r, hr⟩
    have h1 : r < 20 := by by_contra h; have : 20 * 20 ≤ r * r := Nat.mul_le_mul (by omega) (by omega); omega
    have h2 : 19 < r := by by_contra h; have : r * r ≤ 19 * 19 := Nat.mul_le_mul (by omega) (by omega); omega
    omega

/-- With the template's truncation (`nl=20`, `nm=18`, on a 36x40 sphere) there is a library and a real field with a non-zero coefficient of
degree 19 and order 1 that meet all hypotheses of C82_misaddressed and C82_not_ladder; and one of degree 2 that meets those of
C82_complete_degrees_partial. -/
example : ∃ (s : Sphere CR) (v v' : List CR) (c c' : ℕ → ℤ → ℂ), s.Wf ∧ s.sht.RoundTrip ∧ s.lmax = 20 ∧ s.mmax = 18 ∧ s.mmax + 2 ≤ s.lmax ∧
    s.sht.RepC (v.map Cx.ofRe) c ∧ c (s.mmax + 1) 1 ≠ 0 ∧
    s.lmax ^ 2 ≤ s.sht.ncp ∧ s.sht.RepC (v'.map Cx.ofRe) c' ∧ (∀ l m, s.mmax < l → l ≤ s.lmax → c' l m = 0) ∧ c' 2 1 ≠ 0 := by
  obtain ⟨s, x, A, hw, hm, h1, h2, h3, h4, _⟩ := exists_sphere true false (L := 20) (M := 18) (nlat := 36) (nphi := 40)
    (by omega) (by omega) (by omega) (by omega)
  obtain ⟨v, hv⟩ := exists_rep hw (fun l m => if l = 19 ∧ m = 1 then 1 + Complex.I else 0) (by intro l; simp)
  obtain ⟨v', hv'⟩ := exists_rep hw (fun l m => if l = 2 ∧ m = 1 then 1 + Complex.I else 0) (by intro l; simp)
  have hne : (1 + Complex.I : ℂ) ≠ 0 := by
    intro h
    have := congrArg Complex.re h
    simp at this
  have e1 := hm.emb hw.api hv
  have e2 := hm.emb hw.api hv'
  rw [hw.api.mmax_eq, h2] at e1 e2
  refine ⟨s, v, v', _, _, hw, hm.roundTrip hw.api, h1, h2, by omega, e1, ?_, by rw [hw.ncp_eq, h1, h2]; decide, e2, ?_, ?_⟩
  · rw [h2]; simpa [extC] using hne
  · intro l m a b
    exact extC_zero' (by omega) (fun m _ => by rw [if_neg (by omega)]) m
  · simpa [extC] using hne

end SFK
