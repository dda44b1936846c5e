import Verif.Lemmas.Setup
import Mathlib.Algebra.BigOperators.Group.Finset.Basic
import Mathlib.Algebra.BigOperators.Ring.Finset
import Mathlib.Algebra.Order.BigOperators.Group.Finset
/-
C36, C37: the printed diagnostics, in exact arithmetic.
-/
namespace SFK
open Scalar CR

/-- a sum loop in exact arithmetic -/
theorem forRange_sum {n : ℕ} (h : ℕ → ℝ) (s0 : ℝ) {b : ℕ → CR → Exec CR}
    (hb : ∀ i s, i < n → b i (fin s) = .ok (fin (s + h i))) :
    forRange 0 n (fin s0) b = .ok (fin (s0 + ∑ i ∈ Finset.range n, h i)) := by
  have := forRange_closed (b := b) (lo := 0) (hi := n) (fun k => fin (s0 + ∑ i ∈ Finset.range k, h i)) (Nat.zero_le _)
    (s := fin s0) (by simp) (fun i _ hi => by
      rw [hb i _ hi, Finset.sum_range_succ, add_assoc])
  exact this

variable {E : Env CR} {P : ParamRec CR} {g : Grid CR}

/-- C36: the residual norm is the root mean square over the grid of `p - (f_{n+1}-f_n)/dt`; it is non-negative, and zero exactly when
the residual vanishes at every point. -/
theorem C36_residual_norm (hS : BuiltGrid E P g) {dt : ℝ} (hdt : dt ≠ 0) (a b p : ℕ → ℝ) :
    ∃ y : ℝ, g.norm_indep_res (fin dt) (tab (P.nx * P.nlat * P.nphi) fun i => fin (a i)) (tab (P.nx * P.nlat * P.nphi) fun i => fin (b i))
        (tab (P.nx * P.nlat * P.nphi) fun i => fin (p i)) = .ok (fin y) ∧
      y = Real.sqrt ((∑ i ∈ Finset.range (P.nx * P.nlat * P.nphi), (p i - (b i - a i) / dt) ^ 2) / (P.nx * P.nlat * P.nphi : ℕ)) ∧
      0 ≤ y ∧ (y = 0 ↔ ∀ i, i < P.nx * P.nlat * P.nphi → p i = (b i - a i) / dt) := by
  have hw := hS.wf
  have ht := hS.total
  have hpos : 0 < P.nx * P.nlat * P.nphi := by
    have := hS.sizes.two.1
    have := hS.sizes.nlat_pos
    have := hS.sizes.nphi_pos
    positivity
  generalize hN : P.nx * P.nlat * P.nphi = N at *
  have hN0 : (0:ℝ) < (N:ℝ) := by exact_mod_cast hpos
  have hsum : 0 ≤ ∑ i ∈ Finset.range N, (p i - (b i - a i) / dt) ^ 2 := Finset.sum_nonneg fun i _ => sq_nonneg _
  refine ⟨_, ?_, rfl, Real.sqrt_nonneg _, ?_⟩
  · unfold Grid.norm_indep_res
    rw [hw.nTot_eq, ht, cassert_true _ _ (by simp), ok_bind, cassert_true _ _ (by simp), ok_bind, cassert_true _ _ (by simp),
      ok_bind, fin_ofNat_zero, forRange_sum (fun i => (p i - (b i - a i) / dt) ^ 2) 0, ok_bind]
    · rw [fin_dbl, fin_div _ _ hN0.ne', fin_rt _ (by positivity), zero_add]
    · intro i s hi
      rw [rd_tab hi, ok_bind, rd_tab hi, ok_bind, rd_tab hi, ok_bind]
      simp [hdt]
  · rw [Real.sqrt_eq_zero (by positivity), div_eq_zero_iff, or_iff_left hN0.ne', Finset.sum_eq_zero_iff_of_nonneg (fun i _ => sq_nonneg _)]
    constructor
    · intro h i hi
      have := h i (Finset.mem_range.mpr hi)
      have := pow_eq_zero_iff (two_ne_zero) |>.mp this
      linarith
    · intro h i hi
      rw [h i (Finset.mem_range.mp hi)]
      ring

/-- the summand of the total variation -/
noncomputable def tvTerm (F : ℕ → ℕ → ℕ → ℝ) (ix it ip : ℕ) : ℝ :=
  Real.sqrt ((F (ix + 1) it ip - F ix it ip) ^ 2 + (F ix (it + 1) ip - F ix it ip) ^ 2 + (F ix it (ip + 1) - F ix it ip) ^ 2)

/-- the sum the total variation accumulates -/
noncomputable def tvSum (nx nlat nphi : ℕ) (F : ℕ → ℕ → ℕ → ℝ) : ℝ :=
  ∑ ix ∈ Finset.range (nx - 1), ∑ it ∈ Finset.range (nlat - 1), ∑ ip ∈ Finset.range (nphi - 1), tvTerm F ix it ip

theorem tvTerm_nonneg (F : ℕ → ℕ → ℕ → ℝ) (ix it ip : ℕ) : 0 ≤ tvTerm F ix it ip := Real.sqrt_nonneg _

theorem tvSum_nonneg (nx nlat nphi : ℕ) (F : ℕ → ℕ → ℕ → ℝ) : 0 ≤ tvSum nx nlat nphi F :=
  Finset.sum_nonneg fun _ _ => Finset.sum_nonneg fun _ _ => Finset.sum_nonneg fun _ _ => tvTerm_nonneg _ _ _ _

/-- closed form of the diagnostic -/
theorem total_variation_eq (hS : BuiltGrid E P g) (F : ℕ → ℕ → ℕ → ℝ) {v : List CR} (hv : v.length = P.nx * P.nlat * P.nphi)
    (hF : ∀ ix it ip, ix < P.nx → it < P.nlat → ip < P.nphi → g.d.at3 v ix it ip = fin (F ix it ip)) :
    g.total_variation v = .ok (fin (tvSum P.nx P.nlat P.nphi F / (P.nx * P.nlat * P.nphi : ℕ))) := by
  have hw := hS.wf
  have ht := hS.total
  have h1 := hS.sizes.two
  have h2 := hS.sizes.nlat_pos
  have h3 := hS.sizes.nphi_pos
  have hlW : P.nlat < W := by
    have := hS.sizes.fits
    have : P.nlat ≤ P.nx * P.nlat * P.nphi := by
      calc P.nlat ≤ P.nx * P.nlat := Nat.le_mul_of_pos_left _ (by omega)
        _ ≤ _ := Nat.le_mul_of_pos_right _ h3
    omega
  have hpW : P.nphi < W := by
    have := hS.sizes.fits
    have : P.nphi ≤ P.nx * P.nlat * P.nphi := Nat.le_mul_of_pos_left _ (Nat.mul_pos (by omega) h2)
    omega
  have hN0 : ((P.nx * P.nlat * P.nphi : ℕ):ℝ) ≠ 0 := by
    have : 0 < P.nx * P.nlat * P.nphi := Nat.mul_pos (Nat.mul_pos (by omega) h2) h3
    exact_mod_cast this.ne'
  have hrd : ∀ ix it ip, ix < P.nx → it < P.nlat → ip < P.nphi → rd v (g.d.indx_R_th_ph ix it ip) = .ok (fin (F ix it ip)) := by
    intro ix it ip a b c
    rw [hw.ok.rd3 (hv.trans ht.symm) (hS.inR a b c), hF ix it ip a b c]
  unfold Grid.total_variation
  rw [hw.nTot_eq, ht, cassert_true _ _ (by simp [hv]), ok_bind, hS.dims]
  dsimp only
  rw [usub_of_le h1.2 (by omega), usub_of_le hlW h2, usub_of_le hpW h3, fin_ofNat_zero,
    forRange_sum (fun ix => ∑ it ∈ Finset.range (P.nlat - 1), ∑ ip ∈ Finset.range (P.nphi - 1), tvTerm F ix it ip) 0, ok_bind, fin_dbl,
    fin_div _ _ hN0, zero_add]
  · rfl
  · intro ix s hx
    rw [forRange_sum (fun it => ∑ ip ∈ Finset.range (P.nphi - 1), tvTerm F ix it ip) s]
    intro it s hit
    rw [forRange_sum (fun ip => tvTerm F ix it ip) s]
    intro ip s hip
    have hd := hS.dims
    rw [← hd, hrd _ _ _ (by omega) (by omega) (by omega), ok_bind, hrd _ _ _ (by omega) (by omega) (by omega), ok_bind,
      hrd _ _ _ (by omega) (by omega) (by omega), ok_bind, hrd _ _ _ (by omega) (by omega) (by omega), ok_bind]
    simp only [fin_sub, fin_pown, fin_add]
    rw [fin_rt _ (by positivity), fin_add]
    rfl

/-- C37, the value: on any finite grid data the routine returns the sum, over every point that has a successor in all three directions,
of the Euclidean length of the three forward differences, divided by the number of grid points. -/
theorem C37_value (hS : BuiltGrid E P g) (F : ℕ → ℕ → ℕ → ℝ) {v : List CR} (hv : v.length = P.nx * P.nlat * P.nphi)
    (hF : ∀ ix it ip, ix < P.nx → it < P.nlat → ip < P.nphi → g.d.at3 v ix it ip = fin (F ix it ip)) :
    g.total_variation v = .ok (fin ((∑ ix ∈ Finset.range (P.nx - 1), ∑ it ∈ Finset.range (P.nlat - 1), ∑ ip ∈ Finset.range (P.nphi - 1),
      Real.sqrt ((F (ix + 1) it ip - F ix it ip) ^ 2 + (F ix (it + 1) ip - F ix it ip) ^ 2 + (F ix it (ip + 1) - F ix it ip) ^ 2)) /
        ((P.nx : ℝ) * P.nlat * P.nphi))) := by
  rw [total_variation_eq hS F hv hF]
  push_cast
  rfl

/-- the grid array of a function of the indices -/
def Dims.tab3 (d : Dims) (F : ℕ → ℕ → ℕ → ℝ) : List CR := d.mk3 fun ix it ip => fin (F ix it ip)

theorem tv_tab3 (hS : BuiltGrid E P g) (F : ℕ → ℕ → ℕ → ℝ) :
    g.total_variation (g.d.tab3 F) = .ok (fin (tvSum P.nx P.nlat P.nphi F / (P.nx * P.nlat * P.nphi : ℕ))) := by
  refine total_variation_eq hS F (by unfold Dims.tab3; rw [Dims.mk3_length, hS.total]) ?_
  intro ix it ip a b c
  exact hS.wf.ok.at3_mk3 (hS.inR a b c)

theorem tvTerm_eq_zero {F : ℕ → ℕ → ℕ → ℝ} {ix it ip : ℕ} : tvTerm F ix it ip = 0 ↔
    F (ix + 1) it ip = F ix it ip ∧ F ix (it + 1) ip = F ix it ip ∧ F ix it (ip + 1) = F ix it ip := by
  unfold tvTerm
  rw [Real.sqrt_eq_zero (by positivity)]
  constructor
  · intro h
    have h1 := sq_nonneg (F (ix + 1) it ip - F ix it ip)
    have h2 := sq_nonneg (F ix (it + 1) ip - F ix it ip)
    have h3 := sq_nonneg (F ix it (ip + 1) - F ix it ip)
    refine ⟨?_, ?_, ?_⟩
    · have : (F (ix + 1) it ip - F ix it ip) ^ 2 = 0 := by linarith
      have := pow_eq_zero_iff two_ne_zero |>.mp this; linarith
    · have : (F ix (it + 1) ip - F ix it ip) ^ 2 = 0 := by linarith
      have := pow_eq_zero_iff two_ne_zero |>.mp this; linarith
    · have : (F ix it (ip + 1) - F ix it ip) ^ 2 = 0 := by linarith
      have := pow_eq_zero_iff two_ne_zero |>.mp this; linarith
  · rintro ⟨h1, h2, h3⟩
    rw [h1, h2, h3]; ring

theorem tvSum_eq_zero {nx nlat nphi : ℕ} {F : ℕ → ℕ → ℕ → ℝ} : tvSum nx nlat nphi F = 0 ↔
    ∀ ix it ip, ix + 1 < nx → it + 1 < nlat → ip + 1 < nphi →
      F (ix + 1) it ip = F ix it ip ∧ F ix (it + 1) ip = F ix it ip ∧ F ix it (ip + 1) = F ix it ip := by
  unfold tvSum
  rw [Finset.sum_eq_zero_iff_of_nonneg fun _ _ => Finset.sum_nonneg fun _ _ => Finset.sum_nonneg fun _ _ => tvTerm_nonneg _ _ _ _]
  constructor
  · intro h ix it ip hx ht hp
    have h1 := h ix (Finset.mem_range.mpr (by omega))
    rw [Finset.sum_eq_zero_iff_of_nonneg fun _ _ => Finset.sum_nonneg fun _ _ => tvTerm_nonneg _ _ _ _] at h1
    have h2 := h1 it (Finset.mem_range.mpr (by omega))
    rw [Finset.sum_eq_zero_iff_of_nonneg fun _ _ => tvTerm_nonneg _ _ _ _] at h2
    exact tvTerm_eq_zero.mp (h2 ip (Finset.mem_range.mpr (by omega)))
  · intro h ix hx
    refine Finset.sum_eq_zero fun it hit => Finset.sum_eq_zero fun ip hip => tvTerm_eq_zero.mpr ?_
    rw [Finset.mem_range] at hx hit hip
    exact h ix it ip (by omega) (by omega) (by omega)

/-- C37, the parts that hold: never out of bounds; non-negative; unchanged by adding a constant; absolutely homogeneous; and it
vanishes exactly when the field does not vary between neighbours of the cells the loop visits (in particular on constant fields).
Missing: positivity for every non-constant field, which is false (`C37_blind_corner`, `C37_blind_axisymmetric`). -/
theorem C37_total_variation_partial (hS : BuiltGrid E P g) (F : ℕ → ℕ → ℕ → ℝ) (c : ℝ) :
    ∃ y : ℝ, g.total_variation (g.d.tab3 F) = .ok (fin y) ∧ 0 ≤ y ∧
      g.total_variation (g.d.tab3 fun ix it ip => F ix it ip + c) = .ok (fin y) ∧
      g.total_variation (g.d.tab3 fun ix it ip => c * F ix it ip) = .ok (fin (|c| * y)) ∧
      (y = 0 ↔ ∀ ix it ip, ix + 1 < P.nx → it + 1 < P.nlat → ip + 1 < P.nphi →
        F (ix + 1) it ip = F ix it ip ∧ F ix (it + 1) ip = F ix it ip ∧ F ix it (ip + 1) = F ix it ip) ∧
      (y = 0 → ∀ ix it ip, ix + 1 < P.nx → it + 1 < P.nlat → ip + 1 < P.nphi → F ix it ip = F 0 0 0) ∧
      ((∀ ix it ip, ix < P.nx → it < P.nlat → ip < P.nphi → F ix it ip = F 0 0 0) → y = 0) := by
  have hpos : 0 < P.nx * P.nlat * P.nphi := by
    have := hS.sizes.two.1
    have := hS.sizes.nlat_pos
    have := hS.sizes.nphi_pos
    positivity
  have hN0 : (0:ℝ) < ((P.nx * P.nlat * P.nphi : ℕ):ℝ) := by exact_mod_cast hpos
  have hz : tvSum P.nx P.nlat P.nphi F / (P.nx * P.nlat * P.nphi : ℕ) = 0 ↔ ∀ ix it ip, ix + 1 < P.nx → it + 1 < P.nlat → ip + 1 < P.nphi →
        F (ix + 1) it ip = F ix it ip ∧ F ix (it + 1) ip = F ix it ip ∧ F ix it (ip + 1) = F ix it ip := by
    rw [div_eq_zero_iff, or_iff_left hN0.ne', tvSum_eq_zero]
  refine ⟨_, tv_tab3 hS F, div_nonneg (tvSum_nonneg _ _ _ _) hN0.le, ?_, ?_, hz, ?_, ?_⟩
  · rw [tv_tab3 hS]
    congr 3
    unfold tvSum tvTerm
    simp
  · rw [tv_tab3 hS, ← mul_div_assoc]
    congr 3
    unfold tvSum
    rw [Finset.mul_sum]
    refine Finset.sum_congr rfl fun ix _ => ?_
    rw [Finset.mul_sum]
    refine Finset.sum_congr rfl fun it _ => ?_
    rw [Finset.mul_sum]
    refine Finset.sum_congr rfl fun ip _ => ?_
    unfold tvTerm
    rw [← Real.sqrt_sq_eq_abs, ← Real.sqrt_mul (sq_nonneg c)]
    congr 1
    ring
  · intro h
    have h := hz.mp h
    have hx : ∀ ix, ix + 1 < P.nx → 0 + 1 < P.nlat → 0 + 1 < P.nphi → F ix 0 0 = F 0 0 0 := by
      intro ix
      induction ix with
      | zero => intros; rfl
      | succ k ih => intro a b c; rw [(h k 0 0 (by omega) b c).1]; exact ih (by omega) b c
    have ht : ∀ it ix, ix + 1 < P.nx → it + 1 < P.nlat → 0 + 1 < P.nphi → F ix it 0 = F 0 0 0 := by
      intro it
      induction it with
      | zero => intro ix a b c; exact hx ix a b c
      | succ k ih => intro ix a b c; rw [(h ix k 0 a (by omega) c).2.1]; exact ih ix a (by omega) c
    intro ix it ip
    induction ip with
    | zero => exact ht it ix
    | succ k ih => intro a b c; rw [(h ix it k a b (by omega)).2.2]; exact ih a b (by omega)
  · intro h
    refine hz.mpr fun ix it ip a b c => ?_
    rw [h _ _ _ a (by omega) (by omega), h ix it ip (by omega) (by omega) (by omega), h _ _ _ (by omega) b (by omega),
      h _ _ _ (by omega) (by omega) c]
    exact ⟨rfl, rfl, rfl⟩

/-- C37 fails: on every grid the loop never reads the last corner, so the field that is `1` there and `0` elsewhere has total
variation zero (while a grid has at least two points, so this field is not constant). -/
theorem C37_blind_corner (hS : BuiltGrid E P g) :
    g.total_variation (g.d.tab3 fun ix it ip => if ix = P.nx - 1 ∧ it = P.nlat - 1 ∧ ip = P.nphi - 1 then 1 else 0) = .ok (fin 0) ∧
    (g.d.tab3 fun ix it ip => if ix = P.nx - 1 ∧ it = P.nlat - 1 ∧ ip = P.nphi - 1 then 1 else 0)
      ≠ List.replicate (P.nx * P.nlat * P.nphi) (fin 0) := by
  have h1 := hS.sizes.two.1
  have h2 := hS.sizes.nlat_pos
  have h3 := hS.sizes.nphi_pos
  constructor
  · rw [tv_tab3 hS, (tvSum_eq_zero).mpr]
    · simp
    · intro ix it ip a b c
      rw [if_neg (by omega), if_neg (by omega), if_neg (by omega), if_neg (by omega)]
      exact ⟨rfl, rfl, rfl⟩
  · intro h
    have hr := hS.inR (show P.nx - 1 < P.nx by omega) (show P.nlat - 1 < P.nlat by omega) (show P.nphi - 1 < P.nphi by omega)
    have := hS.wf.ok.at3_mk3 (F := fun ix it ip => fin (if ix = P.nx - 1 ∧ it = P.nlat - 1 ∧ ip = P.nphi - 1 then 1 else 0)) hr
    unfold Dims.tab3 at h
    rw [h] at this
    have hl := hS.wf.ok.idx3_lt hr
    rw [hS.total] at hl
    unfold Dims.at3 gv at this
    rw [List.getElem?_replicate, if_pos hl] at this
    simp at this

/-- C37 fails badly with a single azimuthal (or polar) point: every field, however rough, has total variation zero. -/
theorem C37_blind_axisymmetric (hS : BuiltGrid E P g) (h : P.nphi = 1 ∨ P.nlat = 1) (F : ℕ → ℕ → ℕ → ℝ) :
    g.total_variation (g.d.tab3 F) = .ok (fin 0) := by
  rw [tv_tab3 hS, (tvSum_eq_zero).mpr]
  · simp
  · intro ix it ip a b c
    omega

/-- non-vacuity of C36, C37: the concrete set-up; a linear ramp has positive total variation there. -/
example : ∃ (E : Env CR) (g : Grid CR) (y : ℝ), Setup E demoP g ∧ (1/100 : ℝ) ≠ 0 ∧
    g.total_variation (g.d.tab3 fun ix _ _ => (ix : ℝ)) = .ok (fin y) ∧ 0 < y := by
  obtain ⟨E, x, A, g, e, _, _, _, _, h5, _, _⟩ := demo_setup false true false
  obtain ⟨y, h1, h2, _, _, h3, _⟩ := C37_total_variation_partial h5.toBuiltGrid (fun ix _ _ => (ix : ℝ)) 1
  refine ⟨E, g, y, h5, by norm_num, h1, lt_of_le_of_ne h2 fun h => ?_⟩
  have := (h3.mp h.symm 0 0 0 (by decide) (by decide) (by decide)).1
  norm_num at this

/-- non-vacuity of `C37_blind_axisymmetric`: a set-up with one azimuthal point. -/
example : ∃ (E : Env CR) (g : Grid CR), Setup E { demoP with nl := 1, nm := 0, nphi := 1 } g := by
  obtain ⟨E, x, A, h1, h2, h3, h4⟩ := exists_env false true false (nx := 33) (nl := 1) (nm := 0) (nlat := 8) (nphi := 1)
    (by omega) (by omega) (by omega)
  have hz : Sizes E.useCheb 33 1 8 1 :=
    ⟨by rw [h3]; decide, by omega, by omega, by decide, by decide, by omega⟩
  obtain ⟨g, hg, _⟩ := Grid.ctor_wf h4.sized hz demoP.cl demoP.Rmin demoP.Rmax
  exact ⟨E, g, ⟨⟨h4.sized, hz, hg⟩, by show (1 - 0) * (1 - 0 + 1) ≤ 2 * 1 + 1; decide⟩⟩

end SFK
