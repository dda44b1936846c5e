import Verif.Lemmas.LinEom
/-
Two runs of two different set-ups whose right-hand sides are related by an index map and a change of units.
-/
namespace SFK
open Scalar CR

/-- `v` holds `y` and `w` holds `c y∘ρ`. -/
def RelF (n : ℕ) (ρ : ℕ → ℕ) (c : ℝ) (v w : List CR) : Prop := ∃ y : ℕ → ℝ, IsF n v y ∧ IsF n w fun i => c * y (ρ i)

theorem RelF.fin {n : ℕ} {ρ : ℕ → ℕ} {c : ℝ} {v w : List CR} (h : RelF n ρ c v w) : AllFin v ∧ AllFin w := by
  obtain ⟨y, h1, h2⟩ := h
  exact ⟨h1.allFin, h2.allFin⟩

theorem RelF.ax {n : ℕ} {ρ : ℕ → ℕ} (hρ : ∀ i, i < n → ρ i < n) {c d τ τ' : ℝ} {u w k k' : List CR} (h1 : RelF n ρ c u w) (h2 : RelF n ρ d k k')
    (hc : τ' * d = c * τ) : RelF n ρ c (Eom.ax n u (CR.fin τ) k) (Eom.ax n w (CR.fin τ') k') := by
  obtain ⟨y, a1, a2⟩ := h1
  obtain ⟨z, b1, b2⟩ := h2
  refine ⟨fun i => y i + τ * z i, ⟨by simp, fun i hi => ?_⟩, ⟨by simp, fun i hi => ?_⟩⟩
  · rw [Eom.ax_gv hi, a1.2 i hi, b1.2 i hi, fin_mul, fin_add]
  · rw [Eom.ax_gv hi, a2.2 i hi, b2.2 i hi, fin_mul, fin_add, fin_inj]
    linear_combination z (ρ i) * hc

/-- What a step needs of two set-ups: the first has time step `τ`, the second `s τ`. -/
structure Twin (e₁ e₂ : Eom CR) (g₁ g₂ : Grid CR) (n : ℕ) (ρ : ℕ → ℕ) (s : ℝ) : Prop where
  s0 : s ≠ 0
  map : ∀ i, i < n → ρ i < n
  tot₁ : g₁.d.total = n
  tot₂ : g₂.d.total = n
  dt : ∃ τ, e₁.dt = fin τ ∧ e₂.dt = fin (s * τ)
  filt : ∀ c v w, RelF n ρ c v w → RelF n ρ c (g₁.filtP v) (g₂.filtP w)
  rhs : ∀ f₁ f₂ p₁ p₂, RelF n ρ 1 f₁ f₂ → RelF n ρ s⁻¹ p₁ p₂ → AllFin (e₁.rhs g₁ f₁ p₁) → RelF n ρ (s⁻¹ ^ 2) (e₁.rhs g₁ f₁ p₁) (e₂.rhs g₂ f₂ p₂)

namespace Twin
variable {e₁ e₂ : Eom CR} {g₁ g₂ : Grid CR} {n : ℕ} {ρ : ℕ → ℕ} {s : ℝ}

theorem step (h : Twin e₁ e₂ g₁ g₂ n ρ s) {F₁ F₂ Q₁ Q₂ : List CR} (hF : RelF n ρ 1 F₁ F₂) (hQ : RelF n ρ s⁻¹ Q₁ Q₂)
    (h1 : AllFin (e₁.stepF g₁ F₁ Q₁).1) (h2 : AllFin (e₁.stepF g₁ F₁ Q₁).2) :
    RelF n ρ 1 (e₁.stepF g₁ F₁ Q₁).1 (e₂.stepF g₂ F₂ Q₂).1 ∧ RelF n ρ s⁻¹ (e₁.stepF g₁ F₁ Q₁).2 (e₂.stepF g₂ F₂ Q₂).2 := by
  obtain ⟨τ, d1, d2⟩ := h.dt
  have hs := h.s0
  obtain ⟨⟨_, _, x1⟩, ⟨_, _, x2⟩, ⟨_, _, x3⟩, _, _, x4⟩ := step_fin d1 (by obtain ⟨_, y, _⟩ := hF; rw [y.1, h.tot₁])
    (by obtain ⟨_, y, _⟩ := hQ; rw [y.1, h.tot₁]) h1 h2
  have c1 : (lit (1/2) * e₁.dt : CR) = fin (((1/2 : ℚ) : ℝ) * τ) := by rw [d1, fin_lit, fin_mul]
  have c2 : (lit (1/2) * e₂.dt : CR) = fin (((1/2 : ℚ) : ℝ) * (s * τ)) := by rw [d2, fin_lit, fin_mul]
  have c3 : (e₁.dt / 6 : CR) = fin (τ / 6) := by rw [d1, fin_ofNat', fin_div _ _ (by norm_num)]
  have c4 : (e₂.dt / 6 : CR) = fin (s * τ / 6) := by rw [d2, fin_ofNat', fin_div _ _ (by norm_num)]
  have c5 : (e₁.dt / 3 : CR) = fin (τ / 3) := by rw [d1, fin_ofNat', fin_div _ _ (by norm_num)]
  have c6 : (e₂.dt / 3 : CR) = fin (s * τ / 3) := by rw [d2, fin_ofNat', fin_div _ _ (by norm_num)]
  have k1 : ∀ b : ℝ, b * (s * τ) * s⁻¹ = 1 * (b * τ) := fun b => by field_simp
  have k2 : ∀ b : ℝ, b * (s * τ) * s⁻¹ ^ 2 = s⁻¹ * (b * τ) := fun b => by field_simp
  have r1 := h.rhs _ _ _ _ hF hQ x1
  have f2 : RelF n ρ 1 (e₁.L2 g₁ F₁ Q₁).1 (e₂.L2 g₂ F₂ Q₂).1 := by
    unfold Eom.L2; rw [c1, c2, h.tot₁, h.tot₂]; exact hF.ax h.map hQ (k1 _)
  have q2 : RelF n ρ s⁻¹ (e₁.L2 g₁ F₁ Q₁).2 (e₂.L2 g₂ F₂ Q₂).2 := by
    unfold Eom.L2; rw [c1, c2, h.tot₁, h.tot₂]; exact hQ.ax h.map r1 (k2 _)
  have r2 := h.rhs _ _ _ _ f2 q2 x2
  have f3 : RelF n ρ 1 (e₁.L3 g₁ F₁ Q₁).1 (e₂.L3 g₂ F₂ Q₂).1 := by
    unfold Eom.L3; rw [c1, c2, h.tot₁, h.tot₂]; exact hF.ax h.map q2 (k1 _)
  have q3 : RelF n ρ s⁻¹ (e₁.L3 g₁ F₁ Q₁).2 (e₂.L3 g₂ F₂ Q₂).2 := by
    unfold Eom.L3; rw [c1, c2, h.tot₁, h.tot₂]; exact hQ.ax h.map r2 (k2 _)
  have r3 := h.rhs _ _ _ _ f3 q3 x3
  have f4 : RelF n ρ 1 (e₁.L4 g₁ F₁ Q₁).1 (e₂.L4 g₂ F₂ Q₂).1 := by
    unfold Eom.L4; rw [d1, d2, h.tot₁, h.tot₂]; exact hF.ax h.map q3 (by field_simp)
  have q4 : RelF n ρ s⁻¹ (e₁.L4 g₁ F₁ Q₁).2 (e₂.L4 g₂ F₂ Q₂).2 := by
    unfold Eom.L4; rw [d1, d2, h.tot₁, h.tot₂]; exact hQ.ax h.map r3 (by field_simp)
  have r4 := h.rhs _ _ _ _ f4 q4 x4
  have m1 : ∀ b : ℝ, s * τ / b * s⁻¹ = 1 * (τ / b) := fun b => by field_simp
  have m2 : ∀ b : ℝ, s * τ / b * s⁻¹ ^ 2 = s⁻¹ * (τ / b) := fun b => by field_simp
  unfold Eom.stepF
  rw [c3, c4, c5, c6, h.tot₁, h.tot₂]
  exact ⟨(((hF.ax h.map hQ (m1 _)).ax h.map q2 (m1 _)).ax h.map q3 (m1 _)).ax h.map q4 (m1 _),
    (((hQ.ax h.map r1 (m2 _)).ax h.map r2 (m2 _)).ax h.map r3 (m2 _)).ax h.map r4 (m2 _)⟩

theorem evo (h : Twin e₁ e₂ g₁ g₂ n ρ s) {F₁ F₂ Q₁ Q₂ : List CR} (hF : RelF n ρ 1 F₁ F₂) (hQ : RelF n ρ s⁻¹ Q₁ Q₂) (N : ℕ)
    (hfin : ∀ j, j ≤ N → AllFin (evoP e₁ g₁ F₁ Q₁ j).1 ∧ AllFin (evoP e₁ g₁ F₁ Q₁ j).2) :
    RelF n ρ 1 (evoP e₁ g₁ F₁ Q₁ N).1 (evoP e₂ g₂ F₂ Q₂ N).1 ∧ RelF n ρ s⁻¹ (evoP e₁ g₁ F₁ Q₁ N).2 (evoP e₂ g₂ F₂ Q₂ N).2 := by
  induction N with
  | zero => exact ⟨hF, hQ⟩
  | succ N ih =>
    obtain ⟨i1, i2⟩ := ih fun j hj => hfin j (by omega)
    exact h.step (h.filt _ _ _ i1) (h.filt _ _ _ i2) (hfin (N + 1) le_rfl).1 (hfin (N + 1) le_rfl).2

end Twin
end SFK
