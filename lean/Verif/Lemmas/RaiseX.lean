import Verif.Props.Spherical
import Verif.Lemmas.ModesL
/-
The squared gradient that `sphereX` computes does not see a constant.
-/
namespace SFK
open Scalar CR Kerr

/-- coefficients that are 0 except for degree 0 -/
def OnlyZero (L M : ℕ) (d : ℕ → ℕ → ℂ) : Prop := ∀ l m, l ≤ L → m ≤ l → m ≤ M → l ≠ 0 ∨ m ≠ 0 → d l m = 0

section
variable {α : Type} {s : Shtns α} {d : ℕ → ℕ → ℂ}

theorem extC_onlyZero (h : OnlyZero s.lmax s.mmax d) {l : ℕ} {m : ℤ} (hr : s.ResC l m) (hn : (pidx s.mmax l m).toNat ≠ 0) : extC s.mmax d l m = 0 := by
  have hne : l ≠ 0 ∨ m ≠ 0 := by
    by_contra hh
    push Not at hh
    obtain ⟨rfl, rfl⟩ := hh
    exact hn (by rw [pidx_row]; simp [prow])
  obtain ⟨r1, r2, r3⟩ := hr
  have b1 : m.natAbs ≤ l := by rw [abs_le] at r2; omega
  have b2 : m.natAbs ≤ s.mmax := by rw [abs_le] at r3; omega
  have key := h l m.natAbs r1 b1 b2 (by omega)
  unfold extC
  rw [if_pos b2]
  split_ifs with q1 q2
  · subst q1
    rw [show d l 0 = 0 from key]
    simp
  · rw [show m.toNat = m.natAbs by omega, key]
  · rw [key]; simp

theorem raisedG_onlyZero (h : OnlyZero s.lmax s.mmax d) (hL : 1 ≤ s.lmax) {l : ℕ} {m : ℤ} (hr : s.ResC l m) :
    raisedG s.lmax s.mmax (extC s.mmax d) l m = 0 := by
  unfold raisedG
  split_ifs with q1 q2
  · rfl
  · have h0 : 2 ≤ (pidx s.mmax l m).toNat := by
      generalize (pidx s.mmax l m).toNat = k at q2
      rcases k with _ | _ | k
      · simp at q2
      · simp at q2
      · omega
    obtain ⟨p1, p2⟩ := prevC_spec hr (by omega)
    rw [extC_onlyZero h p1 (by omega), mul_zero]
  · refine extC_onlyZero h hr fun h0 => q1 ?_
    rw [h0]
    rw [Nat.sqrt_zero]
    exact hL

theorem loweredG_onlyZero (h : OnlyZero s.lmax s.mmax d) (hm : s.mmax ≤ s.lmax) (hL : 1 ≤ s.lmax) (hc : s.lmax ^ 2 ≤ s.ncp) {l : ℕ} {m : ℤ} (hr : s.ResC l m) :
    loweredG s.lmax s.mmax (extC s.mmax d) l m = 0 := by
  unfold loweredG
  split_ifs with q1 q2
  · rfl
  · have h0 : (pidx s.mmax l m).toNat + 1 < s.ncp := by
      generalize (pidx s.mmax l m).toNat = k at q1 q2
      have h1 := Nat.sqrt_le k
      have h3 : k ≤ k.sqrt * k.sqrt + 2 * k.sqrt := by have := Nat.sqrt_le_add k; omega
      have h4 : (k.sqrt + 1) * (k.sqrt + 1) ≤ s.lmax * s.lmax := Nat.mul_le_mul q1 q1
      have h5 : k.sqrt * k.sqrt + 2 * k.sqrt + 1 = (k.sqrt + 1) * (k.sqrt + 1) := by ring
      have h6 : s.lmax ^ 2 = s.lmax * s.lmax := by ring
      omega
    obtain ⟨p1, p2⟩ := nextC_spec hm hr h0
    rw [extC_onlyZero h p1 (by omega), mul_zero]
  · refine extC_onlyZero h hr fun h0 => q1 ?_
    rw [h0]
    rw [Nat.sqrt_zero]
    exact hL

theorem phiC_onlyZero (h : OnlyZero s.lmax s.mmax d) (hL : 1 ≤ s.lmax) (hM : 1 ≤ s.mmax) {l m : ℕ} (h1 : l ≤ s.lmax) (h2 : m ≤ l) (h3 : m ≤ s.mmax) :
    phiC s.lmax s.mmax d l m = 0 := by
  unfold phiC
  split_ifs with q
  · by_cases h0 : m = 0
    · simp [h0]
    · rw [h l m h1 h2 h3 (.inr h0), mul_zero]
  · exact h l m h1 h2 h3 (by omega)

theorem fieldR_zero' {L M : ℕ} {c : ℕ → ℕ → ℂ} (h : ∀ l m, l ≤ L → m ≤ l → m ≤ M → c l m = 0) (θ φ : ℝ) : fieldR L M c θ φ = 0 := by
  unfold fieldR
  refine Finset.sum_eq_zero fun l hl => ?_
  have hl' : l ≤ L := by rw [Finset.mem_range] at hl; omega
  rw [h l 0 hl' (Nat.zero_le _) (Nat.zero_le _), Finset.sum_eq_zero fun m hm => ?_]
  · simp
  · rw [Finset.mem_Icc] at hm
    rw [h l m hl' (by omega) (by omega), zero_mul]

theorem fieldC_zero' {L M : ℕ} {c : ℕ → ℤ → ℂ} (h : ∀ l m, l ≤ L → |m| ≤ (l : ℤ) → |m| ≤ (M : ℤ) → c l m = 0) (θ φ : ℝ) : fieldC L (cutC M c) θ φ = 0 := by
  unfold fieldC
  refine Finset.sum_eq_zero fun l hl => Finset.sum_eq_zero fun m hm => ?_
  have hl' : l ≤ L := by rw [Finset.mem_range] at hl; omega
  rw [Finset.mem_Icc] at hm
  unfold cutC
  split_ifs with q
  · rw [h l m hl' (abs_le.mpr hm) q, zero_mul]
  · rw [zero_mul]

theorem sphXG_raise (h : OnlyZero s.lmax s.mmax d) (hm : s.mmax ≤ s.lmax) (hM : 1 ≤ s.mmax) (hc : s.lmax ^ 2 ≤ s.ncp) (c : ℕ → ℕ → ℂ) (k θ φ : ℝ) :
    sphXG s.lmax s.mmax (fun l m => (1 : ℝ) * c l m + k * d l m) θ φ = sphXG s.lmax s.mmax c θ φ := by
  have hL : 1 ≤ s.lmax := hM.trans hm
  unfold sphXG
  rw [extC_comb, up_comb, down_comb, phiC_comb, fieldC_comb, fieldC_comb, fieldR_comb,
    fieldC_zero' (c := raisedG s.lmax s.mmax (extC s.mmax d)) fun l m a b e => raisedG_onlyZero h hL ⟨a, b, e⟩,
    fieldC_zero' (c := loweredG s.lmax s.mmax (extC s.mmax d)) fun l m a b e => loweredG_onlyZero h hm hL hc ⟨a, b, e⟩,
    fieldR_zero' fun l m a b e => phiC_onlyZero h hL hM a b e]
  simp

end

theorem const_onlyZero {s : Shtns CR} {contig : Bool} {nlat nphi : ℕ} {x : ℕ → ℝ} {A : ℕ → ℕ → ℕ → ℝ} (h : s.Math contig nlat nphi x A) :
    OnlyZero s.lmax s.mmax (anaN A nlat nphi fun _ _ => 1) := by
  intro l m a b e hne
  have key := anaN_fieldR h (c := constCf 1) (fun l _ => constCf_real _ _) a b e
  simp only [fieldR_const] at key
  rw [key]
  unfold constCf
  rw [if_neg (by omega)]

/-- the squared gradient of a field and of the field plus a constant -/
theorem psphXP_raise {E : Env CR} {P : ParamRec CR} {g : Grid CR} {q : Phys} {x : ℕ → ℝ} {A : ℕ → ℕ → ℕ → ℝ} (h : Exact E P g q x A) (hnm : 1 ≤ P.nm)
    {v w : List CR} {y : ℕ → ℝ} {k : ℝ} (hv : IsF g.d.total v y) (hw' : IsF g.d.total w fun i => y i + k) : g.psphXP w = g.psphXP v := by
  have hw := h.setup.wf
  have hm := h.math
  have hmm : g.sphere.mmax = P.nm := by rw [hw.mmax, h.setup.dims]
  have e1 := hw.sph.api.lmax_eq
  have e2 := hw.sph.api.mmax_eq
  have hT := fun v u hv => sphXP_is2 (v := v) (u := u) hw.sph hm h.setup.full hv
  have hfull := h.setup.full
  rw [hw.nlat, hw.nphi] at hT
  have act := lift_shells hw.ok (fun u it ip => sphXG g.sphere.lmax g.sphere.mmax (anaN A g.d.nlat g.d.nphi u) (Real.arccos (x it)) (phiN g.d.nphi ip)) hT
  refine ((act w _ hw').congr fun i hi => ?_).ext (act v _ hv)
  beta_reduce
  have oz := const_onlyZero hm
  rw [hw.nlat, hw.nphi] at oz
  have e0 : (anaN A g.d.nlat g.d.nphi fun it ip => y (g.d.pos3 (g.d.dX i) it ip) + k) = fun l m =>
      (1 : ℝ) * anaN A g.d.nlat g.d.nphi (fun it ip => y (g.d.pos3 (g.d.dX i) it ip)) l m + k * anaN A g.d.nlat g.d.nphi (fun _ _ => 1) l m := by
    funext l m
    rw [← anaN_comb]
    simp
  rw [e0, ← e1, ← e2]
  exact sphXG_raise oz hw.sph.api.mmax_le (by rw [e2, hmm]; exact hnm) (by rw [e1]; exact hfull) _ _ _ _

end SFK
