import Verif.Lemmas.PulseRun
/-
C109, C110: which degrees the spectrum tables of a run from the built-in initial data can show.
-/
namespace SFK
open Scalar CR

variable {E : Env CR} {P : ParamRec CR} {g : Grid CR} {q : Phys} {x : ℕ → ℝ} {A : ℕ → ℕ → ℕ → ℝ} {io : IOEnv CR} {M M' : ℕ → Junk (Cx CR)}
  {F Q B C D : ℕ → List CR} {tF tD : ℕ → List (List Char)} {res tv : ℕ → CR}

/-- **C109**: a run from the built-in initial data (a pulse times the harmonic `(l,m)`) of a free field around a hole that does not rotate.  At every
step, for as long as the run stays finite, the field is that harmonic times a radial profile `y`, and the field's table shows `-16` in the rows of
all degrees but `l`, and in the row of degree `l` the logarithm of the power of the harmonic (if its order is one the spectrum counts, `m<nm` or
`m=0`). -/
theorem C109_one_degree (h : Exact E P g q x A) (ho : q.Ok) (h0 : 0 < q.lo) (h1 : q.lo < q.up) (h2 : q.up ≤ q.L) (ha : q.a = 0) (hk : q.km1 = 0)
    (hk1 : q.k1 = 0) (hk2 : q.k2 = 0) (hv : q.V3 = 0) (hv4 : q.V4 = 0) {amp rl ru : ℝ} {l m : ℕ} (hP : PulseParams P amp rl ru l m)
    (hH : History P g M F Q B C) (hD : Derived P g io M' F Q B C D tF tD res tv) {N : ℕ} (hfin : ∀ k ≤ N, AllFin (F k) ∧ AllFin (Q k)) :
    ∀ k ≤ N, ∃ y : ℕ → ℝ,
      (∀ ix it ip, ix < P.nx → it < P.nlat → ip < P.nphi → g.d.at3 (F k) ix it ip = fin (y ix * realY l m (Real.arccos (x it)) (phiN P.nphi ip))) ∧
      tF k = valueTable io P.nx P.nl (radPt E.useCheb P.nx q.lo q.up) fun ix l' =>
        if l' = l ∧ (m = 0 ∨ m < P.nm) then shown ((if m = 0 then 1 else 2) * y ix ^ 2) else -16 := by
  intro k hk'
  have hok := h.setup.wf.ok
  have hw := h.setup.wf
  obtain ⟨e, f, p, he, hf, hp, n1, n2, n3, n4⟩ := hH.run h
  obtain ⟨y0, z0, i1, i2⟩ := initial_harmonic h hP hH
  obtain ⟨J⟩ : Nonempty (Junk (Cx CR)) := ⟨fun _ _ => default⟩
  obtain ⟨y, z, key⟩ := C106_spherical_harmonics h he ho h0 h1 h2 ha hk hk1 hk2 hv hv4 (fun _ => J) hP.l_le hP.m_le_l hP.m_le (ι := Unit)
    (fun _ => if m = 0 then 1 else 2) (fun _ => 0) (f := fun _ => f) (p := fun _ => p) (fun _ => hf) (fun _ => hp) y0 z0 (fun _ => by rw [n1]; exact i1)
    (fun _ => by rw [n2]; exact i2) k (fun _ => n4 k fun j hj => hfin j (hj.trans hk'))
  obtain ⟨a, F', Q', c1, c2, _⟩ := key ()
  rw [(n3 _ _ _ _ _ c1).1] at c2
  refine ⟨y, fun ix it ip b1 b2 b3 => ?_, ?_⟩
  · rw [c2 ix it ip (by rw [h.nx]; exact b1) (by rw [h.nlat]; exact b2) (by rw [h.nphi]; exact b3), realY_shape, h.nphi]
  · have c3 := (oneHarmonic_iff hok ((hH.len k).1.trans h.setup.total.symm)).mp c2
    rw [table_fin h c3 (hD.tabF k)]
    unfold valueTable
    congr 1
    refine List.flatMap_congr fun ix hix => ?_
    rw [List.mem_range] at hix
    refine List.map_congr_left fun l' hl' => ?_
    rw [List.mem_range] at hl'
    beta_reduce
    congr 2
    have e1 : g.sphere.sht.lmax = P.nl := by rw [hw.sph.api.lmax_eq, hw.lmax, h.setup.dims]
    have e2 : g.sphere.sht.mmax = P.nm := by rw [hw.sph.api.mmax_eq, hw.mmax, h.setup.dims]
    have hm := h.math
    rw [hw.nlat, hw.nphi, h.nlat, h.nphi] at hm
    have hc : ∀ m', m' ≤ l' → m' ≤ P.nm → anaN A P.nlat P.nphi (fun it ip => y (g.d.dX (g.d.pos3 ix it ip)) *
        shapeY l m (if m = 0 then 1 else 2) 0 (Real.arccos (x (g.d.dT (g.d.pos3 ix it ip)))) (phiN g.d.nphi (g.d.dP (g.d.pos3 ix it ip)))) l' m'
        = if l' = l ∧ m' = m then (y ix : ℂ) else 0 := by
      intro m' b1 b2
      rw [anaN_congr (w := fun it ip => y ix * fieldR P.nl P.nm (realC l m (if m = 0 then 1 else 2) 0) (Real.arccos (x it)) (phiN P.nphi ip)
        + 0 * fieldR P.nl P.nm (realC l m (if m = 0 then 1 else 2) 0) (Real.arccos (x it)) (phiN P.nphi ip)) fun it ip d1 d2 => by
        have hr := h.setup.inR hix d1 d2
        rw [g.d.dX_pos3 hr, g.d.dT_pos3 hr, g.d.dP_pos3 hr, h.nphi, shapeY_field hP.l_le hP.m_le_l hP.m_le]
        ring]
      have h3 := anaN_fieldR hm (c := realC l m (if m = 0 then 1 else 2) 0) (fun k _ => realC_im _ _ _ _ _) (l := l') (m := m') (by rw [e1]; omega) b1
        (by rw [e2]; omega)
      rw [e1, e2] at h3
      rw [anaN_comb, h3]
      unfold realC
      by_cases hh : l' = l ∧ m' = m
      · rw [if_pos hh, if_pos hh]
        by_cases hm0 : m = 0
        · simp [hm0]
        · simp [hm0]
      · rw [if_neg hh, if_neg hh]
        simp
    revert hc
    generalize anaN A P.nlat P.nphi _ = cc
    intro hc
    by_cases hh : l' = l ∧ (m = 0 ∨ m < P.nm)
    · rw [if_pos hh]
      congr 1
      unfold power
      obtain ⟨rfl, hh⟩ := hh
      have hml := hP.m_le_l
      rw [hc 0 (Nat.zero_le _) (Nat.zero_le _)]
      by_cases hm0 : m = 0
      · rw [if_pos ⟨rfl, hm0.symm⟩, if_pos hm0, Finset.sum_eq_zero fun m' hm' => by
          rw [Finset.mem_Icc] at hm'
          rw [hc m' (by omega) (by omega), if_neg (by omega), map_zero]]
        rw [Complex.normSq_ofReal]
        ring
      · rw [if_neg (by omega), if_neg hm0, Finset.sum_eq_single m]
        · rw [hc m hml (by omega), if_pos ⟨rfl, rfl⟩, Complex.normSq_ofReal, map_zero]
          ring
        · intro m' hm' hne
          rw [Finset.mem_Icc] at hm'
          rw [hc m' (by omega) (by omega), if_neg (by omega), map_zero]
        · intro hn
          exact absurd (Finset.mem_Icc.mpr ⟨by omega, by omega⟩) hn
    · rw [if_neg hh]
      refine shown_pow_zero fun m' b1 b2 => ?_
      rw [hc m' b1 (by omega), if_neg (by omega)]

/-- **C110**: a run from the built-in initial data (a pulse times the harmonic `(l,m)`) of a free field around any hole, spinning or not, on a grid
that is symmetric about the equator.  At every step, for as long as the run stays finite, on every circle of latitude the field is a combination
of `cos(mφ)` and `sin(mφ)`, and the rows of the field's table with a degree below `m`, or that differs from `l` by an odd number, show `-16`. -/
theorem C110_selection_rules (h : Exact E P g q x A) (hs : EquatorSym P.nlat P.nl P.nm x A) (hk : q.km1 = 0) (hk1 : q.k1 = 0) (hk2 : q.k2 = 0)
    (hv : q.V3 = 0) (hv4 : q.V4 = 0) {amp rl ru : ℝ} {l m : ℕ} (hP : PulseParams P amp rl ru l m) (hH : History P g M F Q B C)
    (hD : Derived P g io M' F Q B C D tF tD res tv) {N : ℕ} (hfin : ∀ k ≤ N, AllFin (F k) ∧ AllFin (Q k)) :
    ∀ k ≤ N, OneOrder g.d m (F k) ∧ ∃ W : ℕ → ℕ → ℝ, tF k = valueTable io P.nx P.nl (radPt E.useCheb P.nx q.lo q.up) W ∧
      ∀ ix l', ix < P.nx → l' < P.nl → l' < m ∨ (l' + l) % 2 = 1 → W ix l' = -16 := by
  intro k hk'
  have hok := h.setup.wf.ok
  have hw := h.setup.wf
  obtain ⟨e, f, p, he, hf, hp, n1, n2, n3, n4⟩ := hH.run h
  obtain ⟨y0, z0, i1, i2⟩ := initial_harmonic h hP hH
  obtain ⟨J⟩ : Nonempty (Junk (Cx CR)) := ⟨fun _ _ => default⟩
  have st := n4 k fun j hj => hfin j (hj.trans hk')
  have oo : ∀ (v : List CR) (u : ℕ → ℝ), OneHarmonic g.d x l m (if m = 0 then 1 else 2) 0 u v → OneOrder g.d m v := by
    intro v u hu ix it b1 b2
    refine ⟨u ix * ThN l m (Real.arccos (x it)) * (if m = 0 then 1 else 2), 0, fun ip b3 => ?_⟩
    rw [hu ix it ip b1 b2 b3, fin_inj]
    unfold shapeY
    ring
  obtain ⟨a, F', Q', c1, c2, _⟩ := C105_azimuthal_harmonics h he hk hk1 hk2 hv hv4 (fun _ => J) hf hp m k (by rw [n1]; exact oo _ _ i1)
    (by rw [n2]; exact oo _ _ i2) st
  rw [(n3 _ _ _ _ _ c1).1] at c2
  refine ⟨c2, ?_⟩
  -- parity
  have par : ∀ (v : List CR) (u : ℕ → ℝ), OneHarmonic g.d x l m (if m = 0 then 1 else 2) 0 u v → ∀ ix it ip, ix < g.d.nx → it < g.d.nlat → ip < g.d.nphi →
      ∃ r : ℝ, g.d.at3 v ix it ip = fin r ∧ g.d.at3 v ix (g.d.nlat - 1 - it) ip = fin (eps l m * r) := by
    intro v u hu ix it ip b1 b2 b3
    refine ⟨_, hu ix it ip b1 b2 b3, ?_⟩
    rw [hu ix _ ip b1 (by omega) b3, fin_inj, h.nlat, arccos_mir hs (by rw [← h.nlat]; exact b2)]
    unfold shapeY
    rw [ThN_mir]
    unfold eps
    ring
  obtain ⟨y, hy⟩ := (hfin k hk').1.isF (n := g.d.total) ((hH.len k).1.trans h.setup.total.symm)
  have hmir : ∀ ix it ip, ix < g.d.nx → it < g.d.nlat → ip < g.d.nphi → y (g.d.pos3 ix (g.d.nlat - 1 - it) ip) = eps l m * y (g.d.pos3 ix it ip) := by
    intro ix it ip b1 b2 b3
    have r1 : g.d.InR ix it ip := ⟨b1, b2, b3⟩
    have r2 : g.d.InR ix (g.d.nlat - 1 - it) ip := ⟨b1, by omega, b3⟩
    rcases Nat.even_or_odd (l + m) with hev | hod
    · have he1 : eps l m = 1 := by unfold eps; exact hev.neg_one_pow
      have mm : ∀ v u, OneHarmonic g.d x l m (if m = 0 then 1 else 2) 0 u v → Mirrored g.d v v := by
        intro v u hu ix it ip b1 b2 b3
        obtain ⟨r, d1, d2⟩ := par v u hu ix it ip b1 b2 b3
        rw [d1, d2, he1, one_mul]
      obtain ⟨a, F2, Q2, d1, d2, _⟩ := C104_symmetric_states_partial h hs (.inr ⟨hk, hk1, hk2⟩) he (fun _ => J) hf hp k (by rw [n1]; exact mm _ _ i1)
        (by rw [n2]; exact mm _ _ i2) st
      rw [(n3 _ _ _ _ _ d1).1] at d2
      have := d2 ix it ip b1 b2 b3
      rw [hy.at3 hok r1, hy.at3 hok r2, fin_inj] at this
      rw [he1, one_mul, this]
    · have he1 : eps l m = -1 := by unfold eps; exact hod.neg_one_pow
      have mm : ∀ v u, OneHarmonic g.d x l m (if m = 0 then 1 else 2) 0 u v → AntiMirrored g.d v v := by
        intro v u hu ix it ip b1 b2 b3
        obtain ⟨r, d1, d2⟩ := par v u hu ix it ip b1 b2 b3
        rw [d1, d2, he1, fin_neg, fin_inj]
        ring
      obtain ⟨a, F2, Q2, d1, d2, _⟩ := C104_antisymmetric_states_partial h hs hk hk1 hv (.inr hk2) he (fun _ => J) hf hp k (by rw [n1]; exact mm _ _ i1)
        (by rw [n2]; exact mm _ _ i2) st
      rw [(n3 _ _ _ _ _ d1).1] at d2
      have := d2 ix it ip b1 b2 b3
      rw [hy.at3 hok r1, hy.at3 hok r2, fin_neg, fin_inj] at this
      rw [he1, this]
      ring
  refine ⟨_, table_fin h hy (hD.tabF k), fun ix l' hix hl' hsel => shown_pow_zero fun m' b1 b2 => ?_⟩
  have hm := h.math
  rw [hw.nlat, hw.nphi, h.nlat, h.nphi] at hm
  have hnp := hm.nphi_gt
  have e2 : g.sphere.sht.mmax = P.nm := by rw [hw.sph.api.mmax_eq, hw.mmax, h.setup.dims]
  rw [e2] at hnp
  have hmn := hP.m_le
  have hix' : ix < g.d.nx := by rw [h.nx]; exact hix
  by_cases hmm : m' = m
  · subst hmm
    have hpar : (l' + l) % 2 = 1 := by omega
    have k1 := anaN_mir hs (nphi := P.nphi) (fun it ip => y (g.d.pos3 ix it ip)) (l := l') (m := m') hl'.le b1 hmn
    rw [anaN_congr (w := fun it ip => eps l m' * y (g.d.pos3 ix it ip) + 0 * y (g.d.pos3 ix it ip)) fun it ip d1 d2 => by
      have := hmir ix it ip hix' (by rw [h.nlat]; exact d1) (by rw [h.nphi]; exact d2)
      rw [h.nlat] at this
      rw [this]
      ring, anaN_comb] at k1
    have k2 : eps l' m' = -eps l m' := by
      unfold eps
      rcases Nat.even_or_odd (l + m') with a | a
      · rw [a.neg_one_pow, Odd.neg_one_pow (by rw [Nat.odd_iff]; rw [Nat.even_iff] at a; omega)]
      · rw [a.neg_one_pow, Even.neg_one_pow (by rw [Nat.even_iff]; rw [Nat.odd_iff] at a; omega), neg_neg]
    have k3 : (eps l m' : ℂ) ≠ 0 := by
      unfold eps
      exact_mod_cast pow_ne_zero _ (by norm_num : (-1 : ℝ) ≠ 0)
    rw [k2] at k1
    push_cast at k1
    have k4 : (2 * (eps l m' : ℂ)) * anaN A P.nlat P.nphi (fun it ip => y (g.d.pos3 ix it ip)) l' m' = 0 := by linear_combination k1
    rcases mul_eq_zero.mp k4 with k5 | k5
    · exact absurd k5 (mul_ne_zero (by norm_num) k3)
    · exact k5
  · refine anaN_oneOrder (m := m) (fun it hit => ?_) l' hmm (by omega)
    obtain ⟨a, b, hab⟩ := c2 ix it hix' (by rw [h.nlat]; exact hit)
    refine ⟨a, b, fun ip hip => ?_⟩
    have := hab ip (by rw [h.nphi]; exact hip)
    rw [hy.at3 hok ⟨hix', by rw [h.nlat]; exact hit, by rw [h.nphi]; exact hip⟩, fin_inj, h.nphi] at this
    exact this

/-- C109, C110: weak pulses stay finite.  For a free field around any hole, for every pulse that the grid resolves (at some grid point, not on the
outermost shell, pulse times harmonic is more than `1e-16`) and every number `N` of steps there is an amplitude below which the run stays finite for
`N` steps. -/
theorem C109_weak_pulses_stay_finite (h : Exact E P g q x A) (ho : q.Ok) (h0 : 0 < q.lo) (h1 : q.lo < q.up) (h2 : q.up ≤ q.L) (hk0 : q.k0 ≠ 0)
    (hk : q.km1 = 0) (hk1 : q.k1 = 0) (hk2 : q.k2 = 0) (hv : q.V3 = 0) (hv4 : q.V4 = 0) {amp₀ rl ru : ℝ} {l m : ℕ} (hP : PulseParams P amp₀ rl ru l m)
    (hpt : ∃ ix it ip, ix + 1 < P.nx ∧ it < P.nlat ∧ ip < P.nphi ∧
      1 / 10 ^ 16 < |pulse rl ru (codeR q.L (radPt E.useCheb P.nx q.lo q.up ix)) * realY l m (Real.arccos (x it)) (phiN P.nphi ip)|) (N : ℕ) :
    ∃ δ : ℝ, 0 < δ ∧ ∀ amp : ℝ, |amp| < δ → ∀ (M : ℕ → Junk (Cx CR)) (F Q B C : ℕ → List CR), History { P with amp := fin amp } g M F Q B C →
      ∀ k ≤ N, AllFin (F k) ∧ AllFin (Q k) := by
  have hok := h.setup.wf.ok
  obtain ⟨e, _, he⟩ := Eom.Of.exists h.setup
  obtain ⟨ε, hε, hs⟩ := C74_small_free_fields_stay_finite h he ho h0 h1 h2 hk0 hk hk1 hk2 hv hv4
    (fun i => if g.d.dX i + 1 < P.nx then pulse rl ru (codeR q.L (radPt E.useCheb P.nx q.lo q.up (g.d.dX i))) *
      realY l m (Real.arccos (x (g.d.dT i))) (phiN P.nphi (g.d.dP i)) else 0)
    (fun i => if g.d.dX i + 1 < P.nx then dirSign P.direction * deriv (pulse rl ru) (codeR q.L (radPt E.useCheb P.nx q.lo q.up (g.d.dX i))) *
      realY l m (Real.arccos (x (g.d.dT i))) (phiN P.nphi (g.d.dP i)) else 0) N
  refine ⟨ε / 10 ^ 16, by positivity, fun amp hamp M F Q B C hH => ?_⟩
  have hP' : PulseParams { P with amp := fin amp } amp rl ru l m := ⟨rfl, hP.h_rl, hP.h_ru, hP.width, hP.h_l, hP.h_m, hP.m_le_l, hP.l_le, hP.m_le⟩
  have hX : Exact E { P with amp := fin amp } g q x A := ⟨⟨⟨h.setup.sized, h.setup.sizes, h.setup.grid⟩, h.setup.orders⟩, h.env,
    ⟨h.phys.M, h.phys.a, h.phys.L, h.phys.lo, h.phys.up, h.phys.dt, h.phys.km1, h.phys.k0, h.phys.k1, h.phys.k2, h.phys.V2, h.phys.V3, h.phys.V4⟩, h.lu, h.L0⟩
  have hS := hX.setup.toBuiltGrid
  obtain ⟨J⟩ : Nonempty (Junk (Cx CR)) := ⟨fun _ _ => default⟩
  have hz : ∀ it ip, it < P.nlat → ip < P.nphi → ∀ s : ℝ, g.d.at3 (List.replicate (P.nx * P.nlat * P.nphi) (lit 0 : CR)) (P.nx - 1) it ip * fin s = fin 0 := by
    intro it ip b c s
    have hl := hok.idx3_lt (h.setup.inR (show P.nx - 1 < P.nx by have := h.setup.sizes.two.1; omega) b c)
    rw [h.setup.total] at hl
    unfold Dims.at3 gv
    rw [List.getElem?_replicate, if_pos hl]
    simp
  obtain ⟨f', p', s, D, k1, _, _, k4, k5, k6, k7, _⟩ := C54_initial_values hS hX.phys hX.env hX.L0 hP' J
    (f := List.replicate (P.nx * P.nlat * P.nphi) (lit 0)) (p := List.replicate (P.nx * P.nlat * P.nphi) (lit 0)) (by simp) (by simp)
  rw [hH.start J] at k1
  injection k1 with k1
  injection k1 with e1 e2
  subst e1 e2
  have hs' : |s| < ε := by
    have k8 := (k7 hpt).1
    obtain ⟨ix, it, ip, b1, b2, b3, b4⟩ := hpt
    obtain ⟨y, c1, c2⟩ := k8 ix it ip b1 b2 b3
    rw [(k5 ix it ip b1 b2 b3).1, fin_inj] at c1
    rw [← c1, abs_mul] at c2
    have c3 : |s| * (1 / 10 ^ 16) ≤ |amp| := le_trans (mul_le_mul_of_nonneg_left b4.le (abs_nonneg _)) c2
    rw [lt_div_iff₀ (by positivity)] at hamp
    have c4 : |s| ≤ |amp| * 10 ^ 16 := by
      have := mul_le_mul_of_nonneg_right c3 (by positivity : (0 : ℝ) ≤ 10 ^ 16)
      rwa [mul_assoc, one_div, inv_mul_cancel₀ (by positivity), mul_one] at this
    linarith
  have hdec : ∀ i, i < P.nx * P.nlat * P.nphi → ∃ ix it ip, i = g.d.pos3 ix it ip ∧ g.d.InR ix it ip ∧ g.d.dX i = ix ∧ g.d.dT i = it ∧ g.d.dP i = ip := by
    intro i hi
    obtain ⟨d1, d2⟩ := g.d.dec3 (k := i) (by rw [h.setup.total]; exact hi)
    exact ⟨_, _, _, d2.symm, d1, rfl, rfl, rfl⟩
  have he' : Eom.Of g { P with amp := fin amp } e := he
  obtain ⟨l1, l2⟩ := hH.len 0
  have hf : (⟨"f", F 0, F 0, F 0, F 0, P.nx * P.nlat * P.nphi⟩ : Field CR).Sized (P.nx * P.nlat * P.nphi) := ⟨l1, l1, l1, l1, rfl⟩
  have hp : (⟨"p", Q 0, Q 0, Q 0, Q 0, P.nx * P.nlat * P.nphi⟩ : Field CR).Sized (P.nx * P.nlat * P.nphi) := ⟨l2, l2, l2, l2, rfl⟩
  have st := hs s hs' _ _ hf hp (fun i hi => by
      obtain ⟨ix, it, ip, rfl, hr, r1, r2, r3⟩ := hdec i hi
      rw [r1, r2, r3]
      have d0 := hok.at3_eq (F 0) hr
      show gv (F 0) _ = _
      rw [← d0]
      by_cases hc : ix + 1 < P.nx
      · rw [if_pos hc, (k5 ix it ip hc (by rw [← h.nlat]; exact hr.2.1) (by rw [← h.nphi]; exact hr.2.2)).1]
      · have : ix = P.nx - 1 := by have := hr.1; rw [h.nx] at this; omega
        rw [if_neg hc, this, (k6 it ip (by rw [← h.nlat]; exact hr.2.1) (by rw [← h.nphi]; exact hr.2.2)).1,
          hz it ip (by rw [← h.nlat]; exact hr.2.1) (by rw [← h.nphi]; exact hr.2.2), mul_zero])
    (fun i hi => by
      obtain ⟨ix, it, ip, rfl, hr, r1, r2, r3⟩ := hdec i hi
      rw [r1, r2, r3]
      have d0 := hok.at3_eq (Q 0) hr
      show gv (Q 0) _ = _
      rw [← d0]
      by_cases hc : ix + 1 < P.nx
      · rw [if_pos hc, (k5 ix it ip hc (by rw [← h.nlat]; exact hr.2.1) (by rw [← h.nphi]; exact hr.2.2)).2, (k4 _).deriv]
      · have : ix = P.nx - 1 := by have := hr.1; rw [h.nx] at this; omega
        rw [if_neg hc, this, (k6 it ip (by rw [← h.nlat]; exact hr.2.1) (by rw [← h.nphi]; exact hr.2.2)).2,
          hz it ip (by rw [← h.nlat]; exact hr.2.1) (by rw [← h.nphi]; exact hr.2.2), mul_zero])
  intro k hkN
  obtain ⟨s1, F1, Q1, a1, _, _, _, a5, a6⟩ := evolve_eq h.setup he (fun _ => J) hf hp k
  have := st k hkN _ _ _ _ a1
  rw [a5, a6] at this
  rw [(hH.evo hX.setup he' k).1, (hH.evo hX.setup he' k).2]
  exact this

/-! ### Non-vacuity -/

theorem pulse_mid (r : ℝ) : 1 / 10 ^ 6 < pulse (r - 1) (r + 1) r := by
  unfold pulse
  rw [if_pos ⟨by linarith, by linarith⟩, show r - (r - 1) = 1 by ring, show r + 1 - (r - 1) = 2 by ring, show r + 1 - r = 1 by ring, ← Real.exp_add,
    show -(2 / 1 : ℝ) + -(2 * 2 / 1) = -6 by norm_num, Real.exp_neg]
  have h : Real.exp 6 < 729 := by
    rw [show (6 : ℝ) = ((6 : ℕ) : ℝ) * 1 by norm_num, Real.exp_nat_mul]
    calc Real.exp 1 ^ 6 < 3 ^ 6 := pow_lt_pow_left₀ (by have := Real.exp_one_lt_d9; linarith) (Real.exp_pos _).le (by norm_num)
      _ = 729 := by norm_num
  have h2 : (1 / 729 : ℝ) < (Real.exp 6)⁻¹ := by
    rw [one_div]
    exact inv_strictAnti₀ (Real.exp_pos _) h
  nlinarith

theorem realY_one : 1 / 10 < |realY 1 1 (Real.arccos (1 / 8)) 0| := by
  have hl : (Polynomial.derivative^[1] (legP 1)) = 1 := by
    unfold legP
    simp only [Function.iterate_one, pow_one, Nat.factorial_one, Nat.cast_one, mul_one, Polynomial.derivative_sub, Polynomial.derivative_X_pow,
      Polynomial.derivative_one, sub_zero, Polynomial.derivative_mul, Polynomial.derivative_C, zero_mul, zero_add]
    rw [pow_zero, mul_one, ← Polynomial.C_mul, ← Polynomial.C_mul, ← Polynomial.C_1]
    congr 1
    norm_num
  rw [realY_shape]
  unfold shapeY ThN
  rw [hl, Polynomial.eval_one, Real.sin_arccos]
  have h1 : (1 / 10 : ℝ) < nrmY 1 1 := by
    unfold nrmY
    refine Real.lt_sqrt_of_sq_lt ?_
    have hp := Real.pi_lt_d2
    have hp0 := Real.pi_pos
    have : (2 * ((1 : ℕ) : ℝ) + 1) / (4 * Real.pi) * (((1 - 1).factorial : ℝ) / ((1 + 1).factorial : ℝ)) = 3 / (8 * Real.pi) := by
      norm_num [Nat.factorial]
      field_simp
      norm_num
    rw [this, lt_div_iff₀ (by positivity)]
    nlinarith
  have h2 : (1 / 2 : ℝ) < Real.sqrt (1 - (1 / 8) ^ 2) := Real.lt_sqrt_of_sq_lt (by norm_num)
  have h3 : (1 / 20 : ℝ) < nrmY 1 1 * Real.sqrt (1 - (1 / 8) ^ 2) := by nlinarith
  have e : ∀ n s : ℝ, (-1 : ℝ) ^ 1 * n * s ^ 1 * 1 * ((if (1 : ℕ) = 0 then 1 else 2) * Real.cos (((1 : ℕ) : ℝ) * 0) + 0 * Real.sin (((1 : ℕ) : ℝ) * 0)) = -(2 * (n * s)) := by
    intro n s
    rw [if_neg (by decide), mul_zero, Real.cos_zero]
    ring
  rw [e, abs_neg, abs_of_pos (by linarith)]
  linarith

/-- the situation of the examples below: a weak pulse of a free field -/
theorem pulse_demo {l m : ℕ} (hml : m ≤ l) (hl : l ≤ 1) (hY : 1 / 10 < |realY l m (Real.arccos (1 / 8)) 0|) (contig ndebug useCheb : Bool) (a : ℝ) (ha : a = 0 ∨ a = 3 / 10) (io : IOEnv CR) (M : ℕ → Junk (Cx CR)) : ∃ (E : Env CR) (P : ParamRec CR) (q : Phys)
    (x : ℕ → ℝ) (A : ℕ → ℕ → ℕ → ℝ) (g : Grid CR) (amp rl ru : ℝ) (F Q B C D : ℕ → List CR) (tF tD : ℕ → List (List Char)) (res tv : ℕ → CR),
    E.contig = contig ∧ E.ndebug = ndebug ∧ E.useCheb = useCheb ∧
    Exact E P g q x A ∧ EquatorSym P.nlat P.nl P.nm x A ∧ q.Ok ∧ 0 < q.lo ∧ q.lo < q.up ∧ q.up ≤ q.L ∧ q.a = a ∧ q.km1 = 0 ∧ q.k0 ≠ 0 ∧
    q.k1 = 0 ∧ q.k2 = 0 ∧ q.V3 = 0 ∧ q.V4 = 0 ∧ amp ≠ 0 ∧ PulseParams P amp rl ru l m ∧ P.nphi = 16 ∧ P.nl ≤ P.nm ∧
    (∃ ix it ip, ix + 1 < P.nx ∧ it < P.nlat ∧ ip < P.nphi ∧
      1 / 10 ^ 16 < |pulse rl ru (codeR q.L (radPt E.useCheb P.nx q.lo q.up ix)) * realY l m (Real.arccos (x it)) (phiN P.nphi ip)|) ∧
    History P g M F Q B C ∧ Derived P g io M F Q B C D tF tD res tv ∧ ∀ k ≤ 3, AllFin (F k) ∧ AllFin (Q k) := by
  obtain ⟨q, hqd⟩ : ∃ q : Phys, q = { demoQ with V4 := 0, a := a } := ⟨_, rfl⟩
  obtain ⟨r0, hr0⟩ : ∃ r : ℝ, r = codeR q.L (radPt useCheb 33 q.lo q.up 16) := ⟨_, rfl⟩
  obtain ⟨pr, hpr⟩ : ∃ pr : ℝ → ParamRec CR, pr = fun amp => { demoP with
    V4 := fin 0, bh_spin := fin a, l_ang := l, m_ang := m, rl := fin (r0 - 1), ru := fin (r0 + 1), amp := fin amp } := ⟨_, rfl⟩
  have z1 : ∀ t, (pr t).nx = 33 := fun t => by rw [hpr]; rfl
  have z2 : ∀ t, (pr t).nl = 7 := fun t => by rw [hpr]; rfl
  have z3 : ∀ t, (pr t).nm = 7 := fun t => by rw [hpr]; rfl
  have z4 : ∀ t, (pr t).nlat = 8 := fun t => by rw [hpr]; rfl
  have z5 : ∀ t, (pr t).nphi = 16 := fun t => by rw [hpr]; rfl
  obtain ⟨E, x, A, h1, h2, h3, h4, _, h6, h7⟩ := exists_env_nodes contig ndebug useCheb (nx := 33) (nl := 7) (nm := 7) (nlat := 8)
    (nphi := 16) (by omega) (by omega) (by omega)
  have hlo : compR 100 (9/10) = 900 / 1009 := by unfold compR; norm_num
  have hz : Sizes E.useCheb 33 7 8 16 := ⟨by rw [h3]; cases useCheb <;> decide, by omega, by omega, by decide, by decide, by omega⟩
  have his : ∀ t, q.Is (pr t) := fun t => by rw [hqd, hpr]; constructor <;> rfl
  obtain ⟨g, e, h, _⟩ := build_exact (P := pr 0) (q := q) (x := x) (A := A) (E := E) (by rw [z1, z2, z3, z4, z5]; exact h4)
    (by rw [z1, z2, z4, z5]; exact hz) (by rw [z2, z3]; unfold OrdersOk; decide) (his 0) (by rw [hqd]; simp only [demoQ, hlo]; norm_num)
    (by rw [hqd]; simp only [demoQ]; norm_num)
  have hX : ∀ t, Exact E (pr t) g q x A := fun t => by
    have hg := h.setup.grid
    refine ⟨⟨⟨by rw [z1, z2, z3, z4, z5]; exact h4.sized, by rw [z1, z2, z4, z5]; exact hz, ?_⟩, by rw [z2, z3]; unfold OrdersOk; decide⟩,
      by rw [z1, z2, z3, z4, z5]; exact h4, his t, h.lu, h.L0⟩
    rw [hpr] at hg ⊢
    exact hg
  have hq : q.Ok := by
    rw [hqd]
    refine ⟨demo_ok.1, ?_, ?_, demo_ok.4⟩
    · rcases ha with rfl | rfl
      · show |(0:ℝ)| ≤ 1 / 2
        norm_num
      · exact demo_ok.2
    · rcases ha with rfl | rfl
      · refine ⟨Or.inr ?_, Or.inl rfl⟩
        show (1:ℝ) / 10 ^ 16 ≤ abs (1 / 2 - abs (0:ℝ))
        norm_num
      · exact demo_ok.3
  have hP : ∀ t, PulseParams (pr t) t (r0 - 1) (r0 + 1) l m := fun t => by
    rw [hpr]
    refine ⟨rfl, rfl, rfl, ?_, rfl, rfl, hml, ?_, ?_⟩
    · rw [show r0 + 1 - (r0 - 1) = 2 by ring]; norm_num
    · show l ≤ 7
      omega
    · show m ≤ 7
      omega
  have hpt : ∃ ix it ip, ix + 1 < 33 ∧ it < 8 ∧ ip < 16 ∧
      1 / 10 ^ 16 < |pulse (r0 - 1) (r0 + 1) (codeR q.L (radPt E.useCheb 33 q.lo q.up ix)) * realY l m (Real.arccos (x it)) (phiN 16 ip)| := by
    refine ⟨16, 4, 0, by omega, by omega, by omega, ?_⟩
    rw [h3, ← hr0, h7, abs_mul, show phiN 16 0 = 0 by unfold phiN; simp, show (2 * ((4 : ℕ) : ℝ) + 1) / ((8 : ℕ) : ℝ) - 1 = 1 / 8 by norm_num]
    have b1 := pulse_mid r0
    have b2 := hY
    rw [abs_of_pos (lt_trans (by norm_num) b1)]
    nlinarith
  have q0 : 0 < q.lo := by rw [hqd]; simp only [demoQ, hlo]; norm_num
  have q1 : q.lo < q.up := by rw [hqd]; simp only [demoQ, hlo]; norm_num
  have q2 : q.up ≤ q.L := by rw [hqd]; simp only [demoQ]; norm_num
  have q3 : q.k0 ≠ 0 := by rw [hqd]; simp only [demoQ]; norm_num
  obtain ⟨q4, q5, q6, q7, q8, q9⟩ : q.km1 = 0 ∧ q.k1 = 0 ∧ q.k2 = 0 ∧ q.V3 = 0 ∧ q.V4 = 0 ∧ q.a = a := by
    rw [hqd]; exact ⟨rfl, rfl, rfl, rfl, rfl, rfl⟩
  obtain ⟨δ, hδ, hs⟩ := C109_weak_pulses_stay_finite (hX 0) hq q0 q1 q2 q3 q4 q5 q6 q7 q8 (hP 0) (by rw [z1, z4, z5]; exact hpt) 3
  have hV : Valid E (pr (δ / 2)) := by
    refine ⟨by rw [z1, z2, z3, z4, z5]; exact h4.sized, by rw [z1, z2, z4, z5]; exact hz, ?_, ?_, ?_, ?_, ?_⟩ <;> rw [hpr] <;> simp [demoP] <;> omega
  obtain ⟨F, Q, B, C, hH⟩ := exists_history hV (hX (δ / 2)).setup.toBuiltGrid M
  obtain ⟨D, tF, tD, res, tv, hD⟩ := exists_derived (hX (δ / 2)).setup.toBuiltGrid io M hH
  refine ⟨E, pr (δ / 2), q, x, A, g, δ / 2, r0 - 1, r0 + 1, F, Q, B, C, D, tF, tD, res, tv, h1, h2, h3, hX _, by rw [z2, z3, z4]; exact h6, hq, q0, q1, q2, q9,
    q4, q3, q5, q6, q7, q8, by positivity, hP _, z5 _, by rw [z2, z3], by rw [z1, z4, z5]; exact hpt, hH, hD, ?_⟩
  refine hs (δ / 2) (by rw [abs_of_pos (by positivity)]; linarith) M F Q B C ?_
  rw [hpr] at hH ⊢
  exact hH

/-- Non-vacuity of C109 and C110: around a hole with spin 0 and around one with spin 3/10 (mass 1/2), in every build, an `m=1`, `l=1` pulse on a grid
that resolves it, with an amplitude other than zero, meets all hypotheses for 3 steps. -/
example (contig ndebug useCheb : Bool) (a : ℝ) (ha : a = 0 ∨ a = 3 / 10) (io : IOEnv CR) (M : ℕ → Junk (Cx CR)) : ∃ (E : Env CR) (P : ParamRec CR) (q : Phys)
    (x : ℕ → ℝ) (A : ℕ → ℕ → ℕ → ℝ) (g : Grid CR) (amp rl ru : ℝ) (F Q B C D : ℕ → List CR) (tF tD : ℕ → List (List Char)) (res tv : ℕ → CR),
    E.contig = contig ∧ E.ndebug = ndebug ∧ E.useCheb = useCheb ∧
    Exact E P g q x A ∧ EquatorSym P.nlat P.nl P.nm x A ∧ q.Ok ∧ 0 < q.lo ∧ q.lo < q.up ∧ q.up ≤ q.L ∧ q.a = a ∧ q.km1 = 0 ∧ q.k0 ≠ 0 ∧
    q.k1 = 0 ∧ q.k2 = 0 ∧ q.V3 = 0 ∧ q.V4 = 0 ∧ amp ≠ 0 ∧ PulseParams P amp rl ru 1 1 ∧
    (∃ ix it ip, ix + 1 < P.nx ∧ it < P.nlat ∧ ip < P.nphi ∧
      1 / 10 ^ 16 < |pulse rl ru (codeR q.L (radPt E.useCheb P.nx q.lo q.up ix)) * realY 1 1 (Real.arccos (x it)) (phiN P.nphi ip)|) ∧
    History P g M F Q B C ∧ Derived P g io M F Q B C D tF tD res tv ∧ ∀ k ≤ 3, AllFin (F k) ∧ AllFin (Q k) := by
  obtain ⟨E, P, q, x, A, g, amp, rl, ru, F, Q, B, C, D, tF, tD, res, tv, a1, a2, a3, a4, a5, a6, a7, a8, a9, b1, b2, b3, b4, b5, b6, b7, b8, b9, _, _, c1⟩ :=
    pulse_demo le_rfl le_rfl realY_one contig ndebug useCheb a ha io M
  exact ⟨E, P, q, x, A, g, amp, rl, ru, F, Q, B, C, D, tF, tD, res, tv, a1, a2, a3, a4, a5, a6, a7, a8, a9, b1, b2, b3, b4, b5, b6, b7, b8, b9, c1⟩

end SFK
