import Verif.Lemmas.FPSum
import Verif.Props.FP
/-
C94: the reductions of the diagnostics in floating-point arithmetic, under every schedule, with explicit error bounds.
-/
namespace SFK
open Scalar CR

section
variable {φ : Format} {tau : ℝ} {E : Env φ.T} {P : ParamRec φ.T} {g : Grid φ.T}

theorem FPSum.range_of {m : ℕ} {S Ω : ℝ} (h : φ.Sharp tau) (hS : 0 ≤ S) (hm : m * φ.eps ≤ 1 / 2) (hO : 2 * (S + tau) ≤ Ω) :
    (1 + φ.eps) ^ m * (S + tau) ≤ Ω :=
  (mul_le_mul_of_nonneg_right (FPSum.pow_le_two φ.eps_nonneg hm) (add_nonneg hS h.tau_nonneg)).trans hO

/-- C94: the norm of the independent residual.  `s i` is the squared residual at point `i` as computed.  Whatever the distribution of the
points over the threads, and in whatever order and grouping the private sums are combined, the result is finite and is the root of the
mean of the `s i` up to a relative error of `2 (points + threads + 2) eps` (and `2 sqrt tau` where there is underflow). -/
theorem C94_residual_norm_in_floating_point (h : φ.Sharp tau) (ht1 : tau ≤ 1) (hS : BuiltGrid E P g) (dt : φ.T) {a b p : List φ.T}
    (ha : a.length = P.nx * P.nlat * P.nphi) (hb : b.length = P.nx * P.nlat * P.nphi) (hp : p.length = P.nx * P.nlat * P.nphi) {s : ℕ → ℝ}
    (hs : ∀ i, i < P.nx * P.nlat * P.nphi → φ.val (pown (gv p i - (gv b i - gv a i) / dt) 2) = some (s i))
    (hn : φ.val (dbl (P.nx * P.nlat * P.nphi)) = some ((P.nx * P.nlat * P.nphi : ℕ) : ℝ)) {ts : List (List Nat)}
    (ht : IsSchedule (P.nx * P.nlat * P.nphi) ts)
    (hk : ((P.nx * P.nlat * P.nphi + ts.length + 2 : ℕ) : ℝ) * φ.eps ≤ 1 / 2)
    (hO : 2 * ((∑ i ∈ Finset.range (P.nx * P.nlat * P.nphi), s i) + 2) ≤ φ.Omega) :
    ∃ ps, g.norm_indep_res_privates dt a b p ts = .ok ps ∧ (∃ res, Comb (0 :: ps) res) ∧
      ∀ res, Comb (0 :: ps) res → ∃ r, φ.val (g.norm_indep_res_final res) = some r ∧
        |r - Real.sqrt ((∑ i ∈ Finset.range (P.nx * P.nlat * P.nphi), s i) / (P.nx * P.nlat * P.nphi : ℕ))| ≤
          2 * (P.nx * P.nlat * P.nphi + ts.length + 2 : ℕ) * φ.eps *
            Real.sqrt ((∑ i ∈ Finset.range (P.nx * P.nlat * P.nphi), s i) / (P.nx * P.nlat * P.nphi : ℕ)) + 2 * Real.sqrt tau := by
  have hw := hS.wf
  have htot := hS.total
  have npos : 1 ≤ P.nx * P.nlat * P.nphi := by
    have := hS.sizes.two
    exact Nat.mul_pos (Nat.mul_pos (by omega) hS.sizes.nlat_pos) hS.sizes.nphi_pos
  generalize P.nx * P.nlat * P.nphi = n at *
  obtain ⟨S, hSd⟩ : ∃ S, S = ∑ i ∈ Finset.range n, s i := ⟨_, rfl⟩
  rw [← hSd] at hO ⊢
  have s0 : ∀ i, i < n → 0 ≤ s i := fun i hi => h.sq_nonneg _ _ (hs i hi)
  have S0 : 0 ≤ S := by rw [hSd]; exact Finset.sum_nonneg fun i hi => s0 i (Finset.mem_range.mp hi)
  have he := φ.eps_nonneg
  have hτ := h.tau_nonneg
  push_cast at hk
  have hk1 : ((n + ts.length : ℕ) : ℝ) * φ.eps ≤ 1 / 2 := le_trans (by push_cast; nlinarith) hk
  have hO1 := FPSum.range_of (m := n + ts.length) h S0 hk1 (Ω := φ.Omega) (by linarith)
  have hb' : ∀ i, i < n → ∀ acc : φ.T, (do
      let x ← rd p i
      let y ← rd b i
      let z ← rd a i
      (.ok (acc + pown (x - ((y - z) / dt)) 2) : Exec φ.T)) = .ok ([pown (gv p i - (gv b i - gv a i) / dt) 2].foldl (· + ·) acc) := by
    intro i hi acc
    rw [rd_ok (by omega), ok_bind, rd_ok (by omega), ok_bind, rd_ok (by omega), ok_bind]
    rfl
  obtain ⟨ps, h1, h2⟩ := FPSum.reduce h hb' (u := fun i => [s i])
    (fun i hi => List.Forall₂.cons ⟨hs i hi, s0 i hi⟩ List.Forall₂.nil) ht (K := n) (S := S) (by simp) (by simp [hSd]) hO1
  refine ⟨ps, ?_, ?_, fun res hr => ?_⟩
  · unfold Grid.norm_indep_res_privates
    rw [cassert_true _ _ (by simp [ha, hw.nTot_eq, htot]), ok_bind, cassert_true _ _ (by simp [hb, hw.nTot_eq, htot]), ok_bind,
      cassert_true _ _ (by simp [hp, hw.nTot_eq, htot]), ok_bind]
    exact h1
  · exact FPSum.exists_comb _ _
  · have hn1 : (1 : ℝ) ≤ n := by exact_mod_cast npos
    have w1 := h2 res hr
    have w2 := FPSum.Wi.div h w1 hn hn1 hO1
    have hq : Real.sqrt (S / n) ≤ (S + 1) / 2 := by
      rw [Real.sqrt_le_iff]
      refine ⟨by linarith, ?_⟩
      have := div_le_self S0 hn1
      nlinarith [sq_nonneg (S - 1)]
    obtain ⟨r, e1, _, e2⟩ := FPSum.Wi.root h w2 (by push_cast; linarith) ht1 (by linarith)
    refine ⟨r, ?_, ?_⟩
    · unfold Grid.norm_indep_res_final
      rw [hw.nTot_eq, htot]
      exact e1
    · refine e2.trans (le_of_eq ?_)
      push_cast
      ring

/-- C94: the same for the model of main.cpp, in which the loop is executed in index order. -/
theorem C94_residual_norm_in_index_order (h : φ.Sharp tau) (ht1 : tau ≤ 1) (hS : BuiltGrid E P g) (dt : φ.T) {a b p : List φ.T}
    (ha : a.length = P.nx * P.nlat * P.nphi) (hb : b.length = P.nx * P.nlat * P.nphi) (hp : p.length = P.nx * P.nlat * P.nphi) {s : ℕ → ℝ}
    (hs : ∀ i, i < P.nx * P.nlat * P.nphi → φ.val (pown (gv p i - (gv b i - gv a i) / dt) 2) = some (s i))
    (hn : φ.val (dbl (P.nx * P.nlat * P.nphi)) = some ((P.nx * P.nlat * P.nphi : ℕ) : ℝ))
    (hk : ((P.nx * P.nlat * P.nphi + 2 : ℕ) : ℝ) * φ.eps ≤ 1 / 2)
    (hO : 2 * ((∑ i ∈ Finset.range (P.nx * P.nlat * P.nphi), s i) + 2) ≤ φ.Omega) :
    ∃ x r, g.norm_indep_res dt a b p = .ok x ∧ φ.val x = some r ∧
        |r - Real.sqrt ((∑ i ∈ Finset.range (P.nx * P.nlat * P.nphi), s i) / (P.nx * P.nlat * P.nphi : ℕ))| ≤
          2 * (P.nx * P.nlat * P.nphi + 2 : ℕ) * φ.eps *
            Real.sqrt ((∑ i ∈ Finset.range (P.nx * P.nlat * P.nphi), s i) / (P.nx * P.nlat * P.nphi : ℕ)) + 2 * Real.sqrt tau := by
  have hw := hS.wf
  have htot := hS.total
  have npos : 1 ≤ P.nx * P.nlat * P.nphi := by
    have := hS.sizes.two
    exact Nat.mul_pos (Nat.mul_pos (by omega) hS.sizes.nlat_pos) hS.sizes.nphi_pos
  generalize P.nx * P.nlat * P.nphi = n at *
  obtain ⟨S, hSd⟩ : ∃ S, S = ∑ i ∈ Finset.range n, s i := ⟨_, rfl⟩
  rw [← hSd] at hO ⊢
  have s0 : ∀ i, i < n → 0 ≤ s i := fun i hi => h.sq_nonneg _ _ (hs i hi)
  have S0 : 0 ≤ S := by rw [hSd]; exact Finset.sum_nonneg fun i hi => s0 i (Finset.mem_range.mp hi)
  have he := φ.eps_nonneg
  have hτ := h.tau_nonneg
  push_cast at hk
  have hk1 : (n : ℝ) * φ.eps ≤ 1 / 2 := le_trans (by nlinarith) hk
  have hO1 := FPSum.range_of (m := n) h S0 hk1 (Ω := φ.Omega) (by linarith)
  have hb' : ∀ i, i < n → ∀ acc : φ.T, (do
      let x ← rd p i
      let y ← rd b i
      let z ← rd a i
      (.ok (acc + pown (x - ((y - z) / dt)) 2) : Exec φ.T)) = .ok ([pown (gv p i - (gv b i - gv a i) / dt) 2].foldl (· + ·) acc) := by
    intro i hi acc
    rw [rd_ok (by omega), ok_bind, rd_ok (by omega), ok_bind, rd_ok (by omega), ok_bind]
    rfl
  obtain ⟨x, h1, w1⟩ := FPSum.sequential h hb' (u := fun i => [s i])
    (fun i hi => List.Forall₂.cons ⟨hs i hi, s0 i hi⟩ List.Forall₂.nil) (K := n) (S := S) (by simp) (by simp [hSd]) hO1
  have hn1 : (1 : ℝ) ≤ n := by exact_mod_cast npos
  have w2 := FPSum.Wi.div h w1 hn hn1 hO1
  have hq : Real.sqrt (S / n) ≤ (S + 1) / 2 := by
    rw [Real.sqrt_le_iff]
    refine ⟨by linarith, ?_⟩
    have := div_le_self S0 hn1
    nlinarith [sq_nonneg (S - 1)]
  obtain ⟨r, e1, _, e2⟩ := FPSum.Wi.root h w2 (by push_cast; linarith) ht1 (by linarith)
  refine ⟨_, r, ?_, e1, ?_⟩
  · unfold Grid.norm_indep_res
    rw [cassert_true _ _ (by simp [ha, hw.nTot_eq, htot]), ok_bind, cassert_true _ _ (by simp [hb, hw.nTot_eq, htot]), ok_bind,
      cassert_true _ _ (by simp [hp, hw.nTot_eq, htot]), ok_bind]
    rw [hw.nTot_eq, htot, h1, ok_bind]
  · refine e2.trans (le_of_eq ?_)
    push_cast
    ring

/-- the body of the loop of `total_variation` in one shell -/
theorem FPSum.tv_body (hS : BuiltGrid E P g) {v : List φ.T} (hv : v.length = P.nx * P.nlat * P.nphi) (ix : ℕ) (hx : ix < P.nx - 1) (tv : φ.T) :
    (forRange 0 (P.nlat - 1) tv fun it tv => forRange 0 (P.nphi - 1) tv fun ip tv => do
      let c ← rd v (g.d.indx_R_th_ph ix it ip)
      let x ← rd v (g.d.indx_R_th_ph (ix + 1) it ip)
      let y ← rd v (g.d.indx_R_th_ph ix (it + 1) ip)
      let z ← rd v (g.d.indx_R_th_ph ix it (ip + 1))
      (.ok (tv + rt (pown (x - c) 2 + pown (y - c) 2 + pown (z - c) 2)) : Exec φ.T)) =
    .ok (((List.range (P.nlat - 1)).flatMap fun it => (List.range (P.nphi - 1)).flatMap fun ip =>
      [rt (pown (Dims.at3 g.d v (ix + 1) it ip - Dims.at3 g.d v ix it ip) 2 + pown (Dims.at3 g.d v ix (it + 1) ip - Dims.at3 g.d v ix it ip) 2
        + pown (Dims.at3 g.d v ix it (ip + 1) - Dims.at3 g.d v ix it ip) 2)]).foldl (· + ·) tv) := by
  have hw := hS.wf
  rw [← hS.total] at hv
  refine FPSum.forRange_terms (fun it hit tv => FPSum.forRange_terms (fun ip hip tv => ?_) tv) tv
  have i0 := hw.ok.idx3_lt (hS.inR (show ix < P.nx by omega) (show it < P.nlat by omega) (show ip < P.nphi by omega))
  have i1 := hw.ok.idx3_lt (hS.inR (show ix + 1 < P.nx by omega) (show it < P.nlat by omega) (show ip < P.nphi by omega))
  have i2 := hw.ok.idx3_lt (hS.inR (show ix < P.nx by omega) (show it + 1 < P.nlat by omega) (show ip < P.nphi by omega))
  have i3 := hw.ok.idx3_lt (hS.inR (show ix < P.nx by omega) (show it < P.nlat by omega) (show ip + 1 < P.nphi by omega))
  rw [rd_ok (by omega), ok_bind, rd_ok (by omega), ok_bind, rd_ok (by omega), ok_bind, rd_ok (by omega), ok_bind]
  rfl

/-- C94: the total variation.  `w ix it ip` is the length of the difference vector at a point as computed; the loop over shells is
distributed over the threads.  The result is finite and is the sum of the `w` over the number of points, up to a relative error of `2
(terms + threads + 1) eps`; the same holds for the loop in index order. -/
theorem C94_total_variation_in_floating_point (h : φ.Sharp tau) (hS : BuiltGrid E P g) {v : List φ.T}
    (hv : v.length = P.nx * P.nlat * P.nphi) {w : ℕ → ℕ → ℕ → ℝ}
    (hs : ∀ ix it ip, ix + 1 < P.nx → it + 1 < P.nlat → ip + 1 < P.nphi →
      φ.val (rt (pown (Dims.at3 g.d v (ix + 1) it ip - Dims.at3 g.d v ix it ip) 2 + pown (Dims.at3 g.d v ix (it + 1) ip - Dims.at3 g.d v ix it ip) 2
        + pown (Dims.at3 g.d v ix it (ip + 1) - Dims.at3 g.d v ix it ip) 2)) = some (w ix it ip))
    (hn : φ.val (dbl (P.nx * P.nlat * P.nphi)) = some ((P.nx * P.nlat * P.nphi : ℕ) : ℝ)) {ts : List (List Nat)}
    (ht : IsSchedule (P.nx - 1) ts)
    {K : ℕ} (hK : K = (P.nx - 1) * ((P.nlat - 1) * (P.nphi - 1)))
    {V : ℝ} (hV : V = ∑ ix ∈ Finset.range (P.nx - 1), ∑ it ∈ Finset.range (P.nlat - 1), ∑ ip ∈ Finset.range (P.nphi - 1), w ix it ip)
    (hk : ((K + ts.length + 1 : ℕ) : ℝ) * φ.eps ≤ 1 / 2) (hO : 2 * (V + tau) ≤ φ.Omega) :
    (∃ ps, g.total_variation_privates v ts = .ok ps ∧ (∃ tv, Comb (0 :: ps) tv) ∧
      ∀ tv, Comb (0 :: ps) tv → ∃ r, φ.val (g.total_variation_final tv) = some r ∧
        |r - V / (P.nx * P.nlat * P.nphi : ℕ)| ≤ 2 * (K + ts.length + 1 : ℕ) * φ.eps * (V / (P.nx * P.nlat * P.nphi : ℕ) + tau)) ∧
    ∃ x r, g.total_variation v = .ok x ∧ φ.val x = some r ∧
        |r - V / (P.nx * P.nlat * P.nphi : ℕ)| ≤ 2 * (K + 1 : ℕ) * φ.eps * (V / (P.nx * P.nlat * P.nphi : ℕ) + tau) := by
  have hw := hS.wf
  have hd := hS.dims
  have n1 := hS.sizes.two
  have n2 := hS.sizes.nlat_pos
  have n3 := hS.sizes.nphi_pos
  have htot := hS.total
  have hlW : P.nlat < W := by
    have := hS.sizes.fits
    have : P.nlat ≤ P.nx * P.nlat * P.nphi := by
      calc P.nlat ≤ P.nx * P.nlat := Nat.le_mul_of_pos_left _ (by omega)
        _ ≤ _ := Nat.le_mul_of_pos_right _ n3
    omega
  have hpW : P.nphi < W := by
    have := hS.sizes.fits
    have : P.nphi ≤ P.nx * P.nlat * P.nphi := Nat.le_mul_of_pos_left _ (Nat.mul_pos (by omega) n2)
    omega
  have u1 : usub g.d.nx 1 = P.nx - 1 := by rw [hd]; exact usub_of_le n1.2 (Nat.le_trans (by decide) n1.1)
  have u2 : usub g.d.nlat 1 = P.nlat - 1 := by rw [hd]; exact usub_of_le hlW n2
  have u3 : usub g.d.nphi 1 = P.nphi - 1 := by rw [hd]; exact usub_of_le hpW n3
  have npos : 1 ≤ P.nx * P.nlat * P.nphi := Nat.mul_pos (Nat.mul_pos (by omega) n2) n3
  have hn1 : (1 : ℝ) ≤ (P.nx * P.nlat * P.nphi : ℕ) := by exact_mod_cast npos
  have w0 : ∀ ix it ip, ix + 1 < P.nx → it + 1 < P.nlat → ip + 1 < P.nphi → 0 ≤ w ix it ip :=
    fun ix it ip a b c => h.rt_nonneg _ _ (hs ix it ip a b c)
  have V0 : 0 ≤ V := by
    rw [hV]
    refine Finset.sum_nonneg fun ix hx => Finset.sum_nonneg fun it hit => Finset.sum_nonneg fun ip hip => ?_
    rw [Finset.mem_range] at hx hit hip
    exact w0 ix it ip (by omega) (by omega) (by omega)
  have he := φ.eps_nonneg
  have hτ := h.tau_nonneg
  have hk' := hk
  push_cast at hk'
  have hT0 : (0 : ℝ) ≤ ts.length := Nat.cast_nonneg _
  have hk1 : ((K + ts.length : ℕ) : ℝ) * φ.eps ≤ 1 / 2 := le_trans (mul_le_mul_of_nonneg_right (by push_cast; linarith) he) hk
  have hk2 : ((K + 1 : ℕ) : ℝ) * φ.eps ≤ 1 / 2 := le_trans (mul_le_mul_of_nonneg_right (by push_cast; linarith) he) hk
  have hk3 : (K : ℝ) * φ.eps ≤ 1 / 2 := le_trans (mul_le_mul_of_nonneg_right (by push_cast; linarith) he) hk
  have hO1 := FPSum.range_of (m := K + ts.length) h V0 hk1 hO
  have hO2 := FPSum.range_of (m := K) h V0 hk3 hO
  have hu : ∀ ix, ix < P.nx - 1 → List.Forall₂ (fun t r => φ.val t = some r ∧ 0 ≤ r)
      ((List.range (P.nlat - 1)).flatMap fun it => (List.range (P.nphi - 1)).flatMap fun ip =>
        [rt (pown (Dims.at3 g.d v (ix + 1) it ip - Dims.at3 g.d v ix it ip) 2 + pown (Dims.at3 g.d v ix (it + 1) ip - Dims.at3 g.d v ix it ip) 2
          + pown (Dims.at3 g.d v ix it (ip + 1) - Dims.at3 g.d v ix it ip) 2)])
      ((List.range (P.nlat - 1)).flatMap fun it => (List.range (P.nphi - 1)).flatMap fun ip => [w ix it ip]) := by
    intro ix hx
    refine FPSum.forall₂_flatMap _ fun it hit => FPSum.forall₂_flatMap _ fun ip hip => ?_
    rw [List.mem_range] at hit hip
    exact List.Forall₂.cons ⟨hs ix it ip (by omega) (by omega) (by omega), w0 ix it ip (by omega) (by omega) (by omega)⟩ List.Forall₂.nil
  have hsum : ∑ ix ∈ Finset.range (P.nx - 1),
      ((List.range (P.nlat - 1)).flatMap fun it => (List.range (P.nphi - 1)).flatMap fun ip => [w ix it ip]).sum = V := by
    rw [hV]
    refine Finset.sum_congr rfl fun ix _ => ?_
    rw [FPSum.sum_flatMap, FPSum.sum_range]
    refine Finset.sum_congr rfl fun it _ => ?_
    rw [FPSum.sum_flatMap, FPSum.sum_range]
    exact Finset.sum_congr rfl fun ip _ => by simp
  have hlen : ∑ ix ∈ Finset.range (P.nx - 1),
      ((List.range (P.nlat - 1)).flatMap fun it => (List.range (P.nphi - 1)).flatMap fun ip =>
        [rt (pown (Dims.at3 g.d v (ix + 1) it ip - Dims.at3 g.d v ix it ip) 2 + pown (Dims.at3 g.d v ix (it + 1) ip - Dims.at3 g.d v ix it ip) 2
          + pown (Dims.at3 g.d v ix it (ip + 1) - Dims.at3 g.d v ix it ip) 2)]).length = K := by
    have e : ∀ ix, ((List.range (P.nlat - 1)).flatMap fun it => (List.range (P.nphi - 1)).flatMap fun ip =>
        [rt (pown (Dims.at3 g.d v (ix + 1) it ip - Dims.at3 g.d v ix it ip) 2 + pown (Dims.at3 g.d v ix (it + 1) ip - Dims.at3 g.d v ix it ip) 2
          + pown (Dims.at3 g.d v ix it (ip + 1) - Dims.at3 g.d v ix it ip) 2)]).length = (P.nlat - 1) * (P.nphi - 1) := by
      intro ix
      rw [FPSum.length_flatMap', FPSum.sum_range]
      have : ∀ it ∈ Finset.range (P.nlat - 1), ((List.range (P.nphi - 1)).flatMap fun ip =>
        [rt (pown (Dims.at3 g.d v (ix + 1) it ip - Dims.at3 g.d v ix it ip) 2 + pown (Dims.at3 g.d v ix (it + 1) ip - Dims.at3 g.d v ix it ip) 2
          + pown (Dims.at3 g.d v ix it (ip + 1) - Dims.at3 g.d v ix it ip) 2)]).length = P.nphi - 1 := by
        intro it _
        rw [FPSum.length_flatMap', FPSum.sum_range]
        simp
      rw [Finset.sum_congr rfl this, Finset.sum_const, Finset.card_range, smul_eq_mul]
    rw [Finset.sum_congr rfl fun ix _ => e ix, Finset.sum_const, Finset.card_range, smul_eq_mul, hK]
  have hb := FPSum.tv_body hS hv
  constructor
  · obtain ⟨ps, h1, h2⟩ := FPSum.reduce h hb hu ht hlen hsum hO1
    refine ⟨ps, ?_, FPSum.exists_comb _ _, fun res hr => ?_⟩
    · unfold Grid.total_variation_privates
      rw [cassert_true _ _ (by simp [hv, hw.nTot_eq, htot]), ok_bind, u2, u3]
      exact h1
    · obtain ⟨r, e1, _, e2⟩ := FPSum.Wi.explicit h (FPSum.Wi.div h (h2 res hr) hn hn1 hO1) hk
      refine ⟨r, ?_, e2⟩
      unfold Grid.total_variation_final
      rw [hw.nTot_eq, htot]
      exact e1
  · obtain ⟨x, h1, w1⟩ := FPSum.sequential h hb hu hlen hsum hO2
    obtain ⟨r, e1, _, e2⟩ := FPSum.Wi.explicit h (FPSum.Wi.div h w1 hn hn1 hO2) hk2
    refine ⟨_, r, ?_, e1, e2⟩
    unfold Grid.total_variation
    rw [cassert_true _ _ (by simp [hv, hw.nTot_eq, htot]), ok_bind, u1, u2, u3, h1, ok_bind, hw.nTot_eq, htot]

end

/-! ## Binary formats -/

theorem rndBin_zero (p e : ℕ) : rndBin p e 0 = 0 := by unfold rndBin; simp

theorem rndBin_nonneg (p e : ℕ) {x : ℝ} (hx : 0 ≤ x) : 0 ≤ rndBin p e x := by
  have hu : 0 < ulp p e x := by unfold ulp; positivity
  unfold rndBin
  refine mul_nonneg ?_ hu.le
  have : 0 ≤ round (x / ulp p e x) := by
    rw [round_eq, Int.floor_nonneg]
    have := div_nonneg hx hu.le
    linarith
  exact_mod_cast this

/-- rounding is exact or has relative error `2^-p`, or absolute error `2^-p tau` with `tau = 2^(p-1-e)` the smallest normal number -/
theorem rndBin_sharp (p e : ℕ) (x : ℝ) : |rndBin p e x - x| ≤ (2 : ℝ)⁻¹ ^ p * (|x| + (2 : ℝ) ^ ((p : ℤ) - 1 - e)) := by
  by_cases hx : x = 0
  · subst hx
    rw [rndBin_zero, sub_self, abs_zero]
    positivity
  have hu : 0 < ulp p e x := by unfold ulp; positivity
  have h1 : |rndBin p e x - x| ≤ ulp p e x / 2 := by
    have : rndBin p e x - x = (round (x / ulp p e x) - x / ulp p e x) * ulp p e x := by
      unfold rndBin; field_simp
    rw [this, abs_mul, abs_of_pos hu, abs_sub_comm]
    have := abs_sub_round (x / ulp p e x)
    nlinarith
  refine h1.trans ?_
  have hp : (0 : ℝ) < 2⁻¹ ^ p := by positivity
  have ht : (0 : ℝ) < (2 : ℝ) ^ ((p : ℤ) - 1 - e) := by positivity
  rcases le_total (Int.log 2 |x| - p + 1) (-(e : ℤ)) with hc | hc
  · have : ulp p e x = 2 * (2⁻¹ ^ p * (2 : ℝ) ^ ((p : ℤ) - 1 - e)) := by
      unfold ulp
      rw [max_eq_right hc, inv_pow, ← zpow_natCast, ← zpow_neg, ← zpow_add₀ (by norm_num), mul_comm, ← zpow_add_one₀ (by norm_num)]
      congr 1
      ring
    rw [this]
    nlinarith [abs_nonneg x, mul_nonneg hp.le (abs_nonneg x)]
  · have hux : ulp p e x = (2 : ℝ) ^ (Int.log 2 |x| - p + 1) := by unfold ulp; rw [max_eq_left hc]
    have hl := Int.zpow_log_le_self (b := 2) (r := |x|) (by norm_num) (abs_pos.mpr hx)
    push_cast at hl
    have : (2 : ℝ) ^ (Int.log 2 |x| - p + 1) = 2 ^ (Int.log 2 |x|) * (2 * 2⁻¹ ^ p) := by
      rw [zpow_add₀ (by norm_num), zpow_sub₀ (by norm_num), inv_pow, zpow_natCast]
      simp only [zpow_one]
      ring
    rw [hux, this]
    nlinarith [mul_nonneg hp.le ht.le]

/-- integers of at most `p` bits are numbers of the format -/
theorem rndBin_nat (p e : ℕ) {n : ℕ} (hn : n < 2 ^ p) : rndBin p e n = n := by
  by_cases h0 : n = 0
  · subst h0; simpa using rndBin_zero p e
  have npos : (0 : ℝ) < n := by exact_mod_cast Nat.pos_of_ne_zero h0
  obtain ⟨k, hk⟩ : ∃ k : ℕ, ulp p e n = (2 : ℝ) ^ (-(k : ℤ)) := by
    unfold ulp
    have hlog : Int.log 2 |(n : ℝ)| < p := by
      rw [abs_of_pos npos]
      have hl := Int.zpow_log_le_self (b := 2) (r := (n : ℝ)) (by norm_num) npos
      push_cast at hl
      have : (2 : ℝ) ^ (Int.log 2 (n : ℝ)) < (2 : ℝ) ^ (p : ℤ) := lt_of_le_of_lt hl (by rw [zpow_natCast]; exact_mod_cast hn)
      exact (zpow_lt_zpow_iff_right₀ (by norm_num)).mp this
    refine ⟨(-(max (Int.log 2 |(n : ℝ)| - p + 1) (-(e : ℤ)))).toNat, ?_⟩
    rw [Int.toNat_of_nonneg (neg_nonneg.mpr (max_le (by omega) (by omega))), neg_neg]
  unfold rndBin
  rw [hk, zpow_neg, div_inv_eq_mul, zpow_natCast]
  have : ((n : ℝ) * 2 ^ k) = ((n * 2 ^ k : ℤ) : ℝ) := by push_cast; ring
  rw [this, round_intCast]
  push_cast
  rw [mul_assoc, mul_inv_cancel₀ (by positivity), mul_one]

theorem roundsTo_ofRnd {rnd : ℝ → ℝ} {eps tau Omega : ℝ} (h : ∀ x, |rnd x - x| ≤ eps * (|x| + tau)) (hn : ∀ x, 0 ≤ x → 0 ≤ rnd x) (x : ℝ) :
    RoundsTo CR.toReal? eps tau Omega (reround rnd Omega (fin x)) x := by
  intro hx
  refine ⟨rnd x, ?_, h x, hn x⟩
  show CR.toReal? (store rnd Omega x) = _
  unfold store
  rw [if_pos hx]
  rfl

theorem reround_nonneg {rnd : ℝ → ℝ} {Omega : ℝ} (hn : ∀ x, 0 ≤ x → 0 ≤ rnd x) {x y : ℝ} (hx : 0 ≤ x)
    (hy : CR.toReal? (reround rnd Omega (fin x)) = some y) : 0 ≤ y := by
  change CR.toReal? (store rnd Omega x) = _ at hy
  unfold store at hy
  split_ifs at hy with hc
  · cases hy; exact hn x hx
  · cases hy

/-- C94: Correctly rounded binary arithmetic with `p` bits rounds in the required way (binary64: `eps = 2^-53`, `tau = 2^-1022`), and
numbers of points below `2^p` are represented exactly. -/
theorem C94_binary_formats (p e : ℕ) (hpe : p ≤ e) {Omega : ℝ} (hO : (2 : ℝ) ^ p ≤ Omega) :
    (binary p e hpe Omega).Sharp ((2 : ℝ) ^ ((p : ℤ) - 1 - e)) ∧ (2 : ℝ) ^ ((p : ℤ) - 1 - e) ≤ 1 ∧
      ∀ n : ℕ, n < 2 ^ p → (binary p e hpe Omega).val (dbl n) = some (n : ℝ) := by
  have key := roundsTo_ofRnd (Omega := Omega) (rndBin_sharp p e) (fun x hx => rndBin_nonneg p e hx)
  have nat : ∀ n : ℕ, n < 2 ^ p → (binary p e hpe Omega).val (dbl n) = some (n : ℝ) := by
    intro n hn
    show CR.toReal? (reround (rndBin p e) Omega (fin (((n : ℚ) : ℝ)))) = _
    have e1 : ((n : ℚ) : ℝ) = (n : ℝ) := by push_cast; rfl
    rw [e1]
    show CR.toReal? (store (rndBin p e) Omega n) = _
    unfold store
    have : (n : ℝ) ≤ 2 ^ p := by exact_mod_cast hn.le
    rw [if_pos (by rw [abs_of_nonneg (Nat.cast_nonneg n)]; linarith), rndBin_nat p e hn]
    rfl
  refine ⟨⟨by positivity, ?_, ?_, ?_, ?_, ?_, ?_⟩, ?_, nat⟩
  · have := nat 0 (by positivity)
    rw [Nat.cast_zero] at this
    exact this
  · intro a b x y ha hb
    rw [toReal_iff.mp ha, toReal_iff.mp hb]
    exact key (x + y)
  · intro a b x y ha hb hy
    rw [toReal_iff.mp ha, toReal_iff.mp hb]
    show RoundsTo _ _ _ _ (reround (rndBin p e) Omega (fin x / fin y : CR)) _
    rw [fin_div _ _ hy]; exact key _
  · intro a x ha hx
    rw [toReal_iff.mp ha]
    show RoundsTo _ _ _ _ (reround (rndBin p e) Omega (Scalar.rt (fin x) : CR)) _
    rw [fin_rt _ hx]; exact key _
  · intro a y hy
    change CR.toReal? (reround (rndBin p e) Omega (Scalar.pown a 2 : CR)) = _ at hy
    cases a with
    | fin x => exact reround_nonneg (fun x hx => rndBin_nonneg p e hx) (sq_nonneg x) hy
    | bad => cases hy
  · intro a y hy
    change CR.toReal? (reround (rndBin p e) Omega (Scalar.rt a : CR)) = _ at hy
    cases a with
    | fin x =>
      by_cases hx : 0 ≤ x
      · rw [fin_rt _ hx] at hy
        exact reround_nonneg (fun x hx => rndBin_nonneg p e hx) (Real.sqrt_nonneg x) hy
      · have e1 : (Scalar.rt (fin x) : CR) = bad := by
          show (open Classical in if x < 0 then bad else fin (Real.sqrt x)) = _
          rw [if_pos (not_le.mp hx)]
        rw [e1] at hy
        cases hy
    | bad => cases hy
  · exact zpow_le_one_of_nonpos₀ (by norm_num) (by omega)

theorem binary64_range {x : ℝ} (hx : x ≤ 2 ^ 1000) : x ≤ (2 - (2 : ℝ)⁻¹ ^ 52) * 2 ^ 1023 := by
  have h1 : (2 : ℝ) ^ 1000 ≤ 2 ^ 1023 := pow_le_pow_right₀ (by norm_num) (by norm_num)
  have h2 : (2 : ℝ)⁻¹ ^ 52 ≤ 1 := pow_le_one₀ (by norm_num) (by norm_num)
  have h3 : (0 : ℝ) ≤ 2 ^ 1023 := by positivity
  generalize (2 : ℝ) ^ 1023 = A at *
  generalize (2 : ℝ) ^ 1000 = B at *
  generalize (2 : ℝ)⁻¹ ^ 52 = C at *
  nlinarith

theorem binary64_nat {n : ℕ} (hn : n < 2 ^ 53) : reround (rndBin 53 1074) ((2 - (2 : ℝ)⁻¹ ^ 52) * 2 ^ 1023) (fin (n : ℝ)) = fin (n : ℝ) := by
  show store _ _ _ = _
  unfold store
  have h1 : (n : ℝ) ≤ 2 ^ 53 := by exact_mod_cast hn.le
  have h2 : (2 : ℝ) ^ 53 ≤ 2 ^ 1000 := pow_le_pow_right₀ (by norm_num) (by norm_num)
  rw [if_pos (by rw [abs_of_nonneg (Nat.cast_nonneg n)]; exact binary64_range (h1.trans h2)), rndBin_nat 53 1074 hn]

/-- non-vacuity of C94: in binary64, a spinning black hole on the 33 by 8 by 16 grid, a residual that alternates between 1 and 2, two
threads with half of the points each; every combination of the two private sums gives the root of the mean square `5/2` up to
`8456 * 2^-53` relative. -/
example : ∃ (E : Env binary64.T) (g : Grid binary64.T) (a p : List binary64.T), Setup E freeP g ∧ ∃ ps,
    g.norm_indep_res_privates freeP.dt a a p [List.range 2112, List.range' 2112 2112] = .ok ps ∧ (∃ res, Comb (0 :: ps) res) ∧
      ∀ res, Comb (0 :: ps) res → ∃ r, binary64.val (g.norm_indep_res_final res) = some r ∧
        |r - Real.sqrt (5 / 2)| ≤ 2 * (4228 : ℕ) * (2⁻¹ ^ 53) * Real.sqrt (5 / 2) + 2 * Real.sqrt ((2 : ℝ) ^ ((53 : ℤ) - 1 - 1074)) := by
  obtain ⟨E, x, A, g0, e0, _, h, _, _, _, _, _, _⟩ := free_fd
  obtain ⟨M, hM⟩ := C93_documented_libraries_have_matrices (nl := freeP.nl) h.env
  obtain ⟨g, e, hr⟩ := run_ofRnd (rnd := rndBin 53 1074) (eps := 2⁻¹ ^ 53) (Omega := (2 - 2⁻¹ ^ 52) * 2 ^ 1023) (h0 := by positivity)
    (h := rndBin_err (by norm_num)) (le_refl 0) h.setup hM h.phys
  have hS : @Setup binary64.T _ E freeP g := hr.setup
  have hn : freeP.nx * freeP.nlat * freeP.nphi = 4224 := rfl
  obtain ⟨b1, b2, b3⟩ := C94_binary_formats 53 1074 (by norm_num) (Omega := (2 - (2 : ℝ)⁻¹ ^ 52) * 2 ^ 1023)
    (binary64_range (pow_le_pow_right₀ (by norm_num) (by norm_num)))
  obtain ⟨a, ha⟩ : ∃ a : List binary64.T, a = tab 4224 fun _ => fin ((0 : ℕ) : ℝ) := ⟨_, rfl⟩
  obtain ⟨p, hp⟩ : ∃ p : List binary64.T, p = tab 4224 fun i => fin ((i % 2 + 1 : ℕ) : ℝ) := ⟨_, rfl⟩
  have hsum : ∑ i ∈ Finset.range 4224, (((i % 2 + 1) ^ 2 : ℕ) : ℝ) = 10560 := by
    have : ∑ i ∈ Finset.range 4224, ((i % 2 + 1) ^ 2 : ℕ) = 10560 := by
      have key : ∀ k : ℕ, ∑ i ∈ Finset.range (2 * k), ((i % 2 + 1) ^ 2 : ℕ) = 5 * k := by
        intro k
        induction k with
        | zero => rfl
        | succ k ih =>
          rw [show 2 * (k + 1) = 2 * k + 1 + 1 by ring, Finset.sum_range_succ, Finset.sum_range_succ, ih]
          have m1 : 2 * k % 2 = 0 := by omega
          have m2 : (2 * k + 1) % 2 = 1 := by omega
          rw [m1, m2]; ring
      exact key 2112
    rw [← Nat.cast_sum, this]
    norm_num
  have hdt : freeP.dt = fin freeQ.dt := h.phys.dt
  have hdt0 : freeQ.dt ≠ 0 := by simp only [freeQ, demoQ]; norm_num
  obtain ⟨d, hd⟩ : ∃ d : binary64.T, d = (freeP.dt : CR) := ⟨freeP.dt, rfl⟩
  have hs : ∀ i, i < 4224 → binary64.val (pown (gv p i - (gv a i - gv a i) / d) 2) = some (((i % 2 + 1) ^ 2 : ℕ) : ℝ) := by
    intro i hi
    have ep : gv p i = (fin ((i % 2 + 1 : ℕ) : ℝ) : CR) := by rw [hp]; exact gv_tab hi
    have ea : gv a i = (fin ((0 : ℕ) : ℝ) : CR) := by rw [ha]; exact gv_tab hi
    rw [ep, ea, hd, hdt]
    obtain ⟨R, hR⟩ : ∃ R, R = reround (rndBin 53 1074) ((2 - (2 : ℝ)⁻¹ ^ 52) * 2 ^ 1023) := ⟨_, rfl⟩
    have hnat : ∀ n : ℕ, n < 2 ^ 53 → R (fin (n : ℝ)) = fin (n : ℝ) := fun n hn => by rw [hR]; exact binary64_nat hn
    have h2 : i % 2 < 2 := Nat.mod_lt _ (by norm_num)
    have goal : CR.toReal? (R (Scalar.pown (R (Scalar.sub (fin ((i % 2 + 1 : ℕ) : ℝ)) (R (Scalar.div (R (Scalar.sub (fin ((0 : ℕ) : ℝ)) (fin ((0 : ℕ) : ℝ)))) (fin freeQ.dt))))) 2)) =
        some (((i % 2 + 1) ^ 2 : ℕ) : ℝ) := by
      have s1 : (Scalar.sub (fin ((0 : ℕ) : ℝ)) (fin ((0 : ℕ) : ℝ)) : CR) = fin ((0 : ℕ) : ℝ) := congrArg fin (by simp)
      have s2 : (Scalar.div (fin ((0 : ℕ) : ℝ)) (fin freeQ.dt) : CR) = fin ((0 : ℕ) : ℝ) := by
        show (fin _ / fin _ : CR) = _
        rw [fin_div _ _ hdt0]
        exact congrArg fin (by simp)
      have s3 : (Scalar.sub (fin ((i % 2 + 1 : ℕ) : ℝ)) (fin ((0 : ℕ) : ℝ)) : CR) = fin ((i % 2 + 1 : ℕ) : ℝ) := congrArg fin (by simp)
      have s4 : (Scalar.pown (fin ((i % 2 + 1 : ℕ) : ℝ)) 2 : CR) = fin (((i % 2 + 1) ^ 2 : ℕ) : ℝ) := congrArg fin (by push_cast; rfl)
      rw [s1, hnat 0 (by norm_num), s2, hnat 0 (by norm_num), s3, hnat _ (by omega), s4, hnat _ (by
        have : (i % 2 + 1) ^ 2 ≤ 2 ^ 2 := Nat.pow_le_pow_left (by omega) 2
        omega)]
      rfl
    rw [hR] at goal
    exact goal
  have hts : IsSchedule (freeP.nx * freeP.nlat * freeP.nphi) [List.range 2112, List.range' 2112 2112] := by
    unfold IsSchedule
    rw [hn, List.flatten_cons, List.flatten_cons, List.flatten_nil, List.append_nil, List.range_eq_range', List.range_eq_range',
      List.range'_append_1]
  refine ⟨E, g, a, p, hS, ?_⟩
  have := C94_residual_norm_in_floating_point (φ := binary64) b1 b2 (@Setup.toBuiltGrid _ binary64.inst _ _ _ hS) d (a := a) (b := a) (p := p) (by rw [ha, hn]; exact tab_length _ _)
    (by rw [ha, hn]; exact tab_length _ _) (by rw [hp, hn]; exact tab_length _ _) (s := fun i => (((i % 2 + 1) ^ 2 : ℕ) : ℝ))
    (by rw [hn]; exact hs) (by rw [hn]; exact b3 4224 (by norm_num)) hts
    (by
      rw [hn]
      show ((4224 + 2 + 2 : ℕ) : ℝ) * (2⁻¹ ^ 53) ≤ 1 / 2
      norm_num)
    (by
      rw [hn, hsum]
      show _ ≤ (2 - (2 : ℝ)⁻¹ ^ 52) * 2 ^ 1023
      refine binary64_range ?_
      have : (2 : ℝ) ^ 20 ≤ 2 ^ 1000 := pow_le_pow_right₀ (by norm_num) (by norm_num)
      exact le_trans (by norm_num) this)
  rw [hn, hsum, hd] at this
  obtain ⟨ps, q1, q2, q3⟩ := this
  refine ⟨ps, q1, q2, fun res hres => ?_⟩
  obtain ⟨r, r1, r2⟩ := q3 res hres
  refine ⟨r, r1, ?_⟩
  have e5 : (10560 : ℝ) / ((4224 : ℕ) : ℝ) = 5 / 2 := by norm_num
  rw [e5] at r2
  exact r2

end SFK
