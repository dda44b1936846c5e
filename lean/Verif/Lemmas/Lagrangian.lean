import Verif.Spec.Lagrangian
import Verif.Lemmas.Twin
import Verif.Props.Units
/-
Two runs on one grid with two Lagrangians.
-/
namespace SFK
open Scalar CR Kerr

/-- What a step needs of two objects on one grid: relations between fields and between velocities. -/
structure Pair (e₁ e₂ : Eom CR) (g : Grid CR) (RF RQ : List CR → List CR → Prop) : Prop where
  dt : ∃ τ, e₁.dt = fin τ ∧ e₂.dt = fin τ
  axF : ∀ u w k k' (c : ℝ), RF u w → RQ k k' → RF (Eom.ax g.d.total u (fin c) k) (Eom.ax g.d.total w (fin c) k')
  axQ : ∀ u w k k' (c : ℝ), RQ u w → RQ k k' → RQ (Eom.ax g.d.total u (fin c) k) (Eom.ax g.d.total w (fin c) k')
  filtF : ∀ u w, RF u w → RF (g.filtP u) (g.filtP w)
  filtQ : ∀ u w, RQ u w → RQ (g.filtP u) (g.filtP w)
  rhs : ∀ f₁ f₂ p₁ p₂, RF f₁ f₂ → RQ p₁ p₂ → AllFin (e₁.rhs g f₁ p₁) → AllFin (e₂.rhs g f₂ p₂) → RQ (e₁.rhs g f₁ p₁) (e₂.rhs g f₂ p₂)
  len : ∀ u w, RF u w ∨ RQ u w → u.length = g.d.total ∧ w.length = g.d.total

namespace Pair
variable {e₁ e₂ : Eom CR} {g : Grid CR} {RF RQ : List CR → List CR → Prop}

theorem step (h : Pair e₁ e₂ g RF RQ) {F₁ F₂ Q₁ Q₂ : List CR} (hF : RF F₁ F₂) (hQ : RQ Q₁ Q₂)
    (h1 : AllFin (e₁.stepF g F₁ Q₁).1) (h2 : AllFin (e₁.stepF g F₁ Q₁).2) (h3 : AllFin (e₂.stepF g F₂ Q₂).1) (h4 : AllFin (e₂.stepF g F₂ Q₂).2) :
    RF (e₁.stepF g F₁ Q₁).1 (e₂.stepF g F₂ Q₂).1 ∧ RQ (e₁.stepF g F₁ Q₁).2 (e₂.stepF g F₂ Q₂).2 := by
  obtain ⟨τ, d1, d2⟩ := h.dt
  obtain ⟨l1, l2⟩ := h.len _ _ (.inl hF)
  obtain ⟨l3, l4⟩ := h.len _ _ (.inr hQ)
  obtain ⟨⟨_, _, x1⟩, ⟨_, _, x2⟩, ⟨_, _, x3⟩, _, _, x4⟩ := step_fin d1 l1 l3 h1 h2
  obtain ⟨⟨_, _, y1⟩, ⟨_, _, y2⟩, ⟨_, _, y3⟩, _, _, y4⟩ := step_fin d2 l2 l4 h3 h4
  have c1 : (lit (1/2) * e₁.dt : CR) = fin (((1/2 : ℚ) : ℝ) * τ) := by rw [d1, fin_lit, fin_mul]
  have c2 : (lit (1/2) * e₂.dt : CR) = fin (((1/2 : ℚ) : ℝ) * τ) := by rw [d2, fin_lit, fin_mul]
  have c3 : (e₁.dt / 6 : CR) = fin (τ / 6) := by rw [d1, fin_ofNat', fin_div _ _ (by norm_num)]
  have c4 : (e₂.dt / 6 : CR) = fin (τ / 6) := by rw [d2, fin_ofNat', fin_div _ _ (by norm_num)]
  have c5 : (e₁.dt / 3 : CR) = fin (τ / 3) := by rw [d1, fin_ofNat', fin_div _ _ (by norm_num)]
  have c6 : (e₂.dt / 3 : CR) = fin (τ / 3) := by rw [d2, fin_ofNat', fin_div _ _ (by norm_num)]
  have r1 := h.rhs _ _ _ _ hF hQ x1 y1
  have f2 : RF (e₁.L2 g F₁ Q₁).1 (e₂.L2 g F₂ Q₂).1 := by unfold Eom.L2; rw [c1, c2]; exact h.axF _ _ _ _ _ hF hQ
  have q2 : RQ (e₁.L2 g F₁ Q₁).2 (e₂.L2 g F₂ Q₂).2 := by unfold Eom.L2; rw [c1, c2]; exact h.axQ _ _ _ _ _ hQ r1
  have r2 := h.rhs _ _ _ _ f2 q2 x2 y2
  have f3 : RF (e₁.L3 g F₁ Q₁).1 (e₂.L3 g F₂ Q₂).1 := by unfold Eom.L3; rw [c1, c2]; exact h.axF _ _ _ _ _ hF q2
  have q3 : RQ (e₁.L3 g F₁ Q₁).2 (e₂.L3 g F₂ Q₂).2 := by unfold Eom.L3; rw [c1, c2]; exact h.axQ _ _ _ _ _ hQ r2
  have r3 := h.rhs _ _ _ _ f3 q3 x3 y3
  have f4 : RF (e₁.L4 g F₁ Q₁).1 (e₂.L4 g F₂ Q₂).1 := by unfold Eom.L4; rw [d1, d2]; exact h.axF _ _ _ _ _ hF q3
  have q4 : RQ (e₁.L4 g F₁ Q₁).2 (e₂.L4 g F₂ Q₂).2 := by unfold Eom.L4; rw [d1, d2]; exact h.axQ _ _ _ _ _ hQ r3
  have r4 := h.rhs _ _ _ _ f4 q4 x4 y4
  unfold Eom.stepF
  rw [c3, c4, c5, c6]
  exact ⟨h.axF _ _ _ _ _ (h.axF _ _ _ _ _ (h.axF _ _ _ _ _ (h.axF _ _ _ _ _ hF hQ) q2) q3) q4,
    h.axQ _ _ _ _ _ (h.axQ _ _ _ _ _ (h.axQ _ _ _ _ _ (h.axQ _ _ _ _ _ hQ r1) r2) r3) r4⟩

theorem evo (h : Pair e₁ e₂ g RF RQ) {F₁ F₂ Q₁ Q₂ : List CR} (hF : RF F₁ F₂) (hQ : RQ Q₁ Q₂) (N : ℕ)
    (h1 : ∀ j, j ≤ N → AllFin (evoP e₁ g F₁ Q₁ j).1 ∧ AllFin (evoP e₁ g F₁ Q₁ j).2)
    (h2 : ∀ j, j ≤ N → AllFin (evoP e₂ g F₂ Q₂ j).1 ∧ AllFin (evoP e₂ g F₂ Q₂ j).2) :
    RF (evoP e₁ g F₁ Q₁ N).1 (evoP e₂ g F₂ Q₂ N).1 ∧ RQ (evoP e₁ g F₁ Q₁ N).2 (evoP e₂ g F₂ Q₂ N).2 := by
  induction N with
  | zero => exact ⟨hF, hQ⟩
  | succ N ih =>
    obtain ⟨i1, i2⟩ := ih (fun j hj => h1 j (by omega)) fun j hj => h2 j (by omega)
    exact h.step (h.filtF _ _ i1) (h.filtQ _ _ i2) (h1 (N + 1) le_rfl).1 (h1 (N + 1) le_rfl).2 (h2 (N + 1) le_rfl).1 (h2 (N + 1) le_rfl).2

end Pair

variable {E : Env CR} {P₁ P₂ : ParamRec CR} {g : Grid CR} {q q' : Phys} {x : ℕ → ℝ} {A : ℕ → ℕ → ℕ → ℝ} {e₁ e₂ : Eom CR}

/-- same hole, same grid -/
def SameHole (q q' : Phys) : Prop := q'.M = q.M ∧ q'.a = q.a ∧ q'.L = q.L ∧ q'.dt = q.dt

theorem same_sizes (h₁ : Exact E P₁ g q x A) (h₂ : Exact E P₂ g q' x A) : P₂.nx = P₁.nx ∧ P₂.nlat = P₁.nlat ∧ P₂.nphi = P₁.nphi := by
  have := h₁.setup.dims.symm.trans h₂.setup.dims
  injection this with a b c d e
  exact ⟨a.symm, d.symm, e.symm⟩

theorem same_coef (h₁ : Exact E P₁ g q x A) (h₂ : Exact E P₂ g q' x A) (hh : SameHole q q') (he₁ : Eom.Of g P₁ e₁) (he₂ : Eom.Of g P₂ e₂) :
    e₂.coef = e₁.coef := by
  obtain ⟨s₁, _, rfl⟩ := he₁.eq h₁.setup
  obtain ⟨s₂, _, rfl⟩ := he₂.eq h₂.setup
  obtain ⟨a, b, c, _⟩ := hh
  show (g.d.mk3 fun ix it _ => Eom.coefAt g P₂ ix it : List (Coef CR)) = (g.d.mk3 fun ix it _ => Eom.coefAt g P₁ ix it : List (Coef CR))
  unfold Eom.coefAt
  rw [h₁.phys.a, h₁.phys.M, h₂.phys.a, h₂.phys.M, h₁.phys.L, h₂.phys.L, a, b, c]

/-! ## A factor in front of the Lagrangian -/

section times
variable {s : ℝ} (hs : s ≠ 0) (h₁ : Exact E P₁ g q x A) (h₂ : Exact E P₂ g (q.times s) x A) (he₁ : Eom.Of g P₁ e₁) (he₂ : Eom.Of g P₂ e₂)
include h₁ h₂ he₁ he₂

theorem kVal_times (f : CR) : e₂.kVal f = fin s * e₁.kVal f := by
  obtain ⟨a1, a2, a3, a4, a5, a6, a7, _⟩ := he₁.par h₁.setup h₁.phys
  obtain ⟨b1, b2, b3, b4, b5, b6, b7, _⟩ := he₂.par h₂.setup h₂.phys
  unfold Eom.kVal
  rw [a1, a2, a3, a4, b1, b2, b3, b4]
  cases f with
  | bad => simp
  | fin f =>
    simp only [fin_ofNat_one, fin_ofNat', fin_add, fin_pown, fin_div _ _ (two_ne_zero (α := ℝ))]
    by_cases hf : f + 1 = 0
    · simp [hf]
    · simp only [fin_div _ _ hf, fin_mul, fin_add, fin_inj, Phys.times]
      ring

theorem vVal_times (f : CR) : e₂.vVal f = fin s * e₁.vVal f := by
  obtain ⟨a1, a2, a3, a4, a5, a6, a7, _⟩ := he₁.par h₁.setup h₁.phys
  obtain ⟨b1, b2, b3, b4, b5, b6, b7, _⟩ := he₂.par h₂.setup h₂.phys
  unfold Eom.vVal
  rw [a5, a6, a7, b5, b6, b7]
  cases f with
  | bad => simp
  | fin f =>
    simp only [fin_ofNat', fin_pown, fin_div _ _ (two_ne_zero (α := ℝ))]
    rw [fin_div _ _ (by norm_num), fin_div _ _ (by norm_num), fin_div _ _ (by norm_num), fin_div _ _ (by norm_num)]
    simp only [fin_mul, fin_add, fin_inj, Phys.times]
    ring

include hs

theorem inverseK_times (f : CR) : e₂.inverseK f = fin s⁻¹ * e₁.inverseK f := by
  have hk := kVal_times h₁ h₂ he₁ he₂ f
  have u : ∀ e : Eom CR, e.inverseK f = 1 / e.kVal f := fun e => rfl
  rw [u, u, hk]
  cases e₁.kVal f with
  | bad => simp
  | fin k =>
    rw [fin_mul, fin_ofNat_one]
    by_cases h0 : k = 0
    · rw [h0, mul_zero, fin_div_zero]; simp
    · rw [fin_div _ _ (mul_ne_zero hs h0), fin_div _ _ h0, fin_mul, fin_inj]
      field_simp

theorem kprime_times (f : CR) : e₂.kprime f = fin s * e₁.kprime f := by
  obtain ⟨a1, a2, a3, a4, a5, a6, a7, _⟩ := he₁.par h₁.setup h₁.phys
  obtain ⟨b1, b2, b3, b4, b5, b6, b7, _⟩ := he₂.par h₂.setup h₂.phys
  unfold Eom.kprime
  rw [a1, a3, a4, b1, b3, b4]
  cases f with
  | bad => simp
  | fin f =>
    simp only [fin_ofNat_one, fin_neg, fin_add, fin_pown]
    by_cases hf : f + 1 = 0
    · simp [hf]
    · have hf2 : (f + 1) ^ 2 ≠ 0 := pow_ne_zero _ hf
      simp only [fin_div _ _ hf2, fin_mul, fin_add, fin_inj, Phys.times]
      ring

theorem vprime_times (f : CR) : e₂.vprime f = e₁.vprime f := by
  obtain ⟨a1, a2, a3, a4, a5, a6, a7, _⟩ := he₁.par h₁.setup h₁.phys
  obtain ⟨b1, b2, b3, b4, b5, b6, b7, _⟩ := he₂.par h₂.setup h₂.phys
  have hk := inverseK_times hs h₁ h₂ he₁ he₂ f
  unfold Eom.vprime
  rw [hk, a5, a6, a7, b5, b6, b7]
  generalize e₁.inverseK f = k
  cases k with
  | bad => simp
  | fin k =>
    cases f with
    | bad => simp
    | fin f =>
      simp only [fin_ofNat', fin_pown, fin_div _ _ (two_ne_zero (α := ℝ))]
      rw [fin_div _ _ (by norm_num), fin_div _ _ (by norm_num)]
      simp only [fin_mul, fin_add, fin_inj, Phys.times]
      field_simp

theorem pk_times (c : Coef CR) (f p r vr rr ph rph X lap : CR) : e₂.pk c f p r vr rr ph rph X lap = e₁.pk c f p r vr rr ph rph X lap := by
  unfold Eom.pk
  rw [vprime_times hs h₁ h₂ he₁ he₂, kprime_times hs h₁ h₂ he₁ he₂, inverseK_times hs h₁ h₂ he₁ he₂]
  have : fin s * e₁.kprime f * (fin s⁻¹ * e₁.inverseK f) = e₁.kprime f * e₁.inverseK f := by
    cases e₁.kprime f with
    | bad => simp
    | fin k =>
      cases e₁.inverseK f with
      | bad => simp
      | fin i =>
        simp only [fin_mul, fin_inj]
        field_simp
  rw [this]

omit hs in
theorem rhoVal_times (c : Coef CR) (f p r ph X : CR) : e₂.rhoVal c f p r ph X = fin s * e₁.rhoVal c f p r ph X := by
  unfold Eom.rhoVal
  rw [kVal_times h₁ h₂ he₁ he₂, vVal_times h₁ h₂ he₁ he₂]
  have d : ∀ a b : CR, fin s * (a + b) = fin s * a + fin s * b := by
    intro a b
    cases a <;> cases b <;> simp [mul_add]
  have m : ∀ a b : CR, fin s * a * b = fin s * (a * b) := by
    intro a b
    cases a <;> cases b <;> simp [mul_assoc]
  rw [d, m, m]

theorem rhs_times (F Q : List CR) : e₂.rhs g F Q = e₁.rhs g F Q := by
  unfold Eom.rhs
  rw [same_coef h₁ h₂ ⟨rfl, rfl, rfl, rfl⟩ he₁ he₂]
  simp only [pk_times hs h₁ h₂ he₁ he₂]

theorem evoP_times (F Q : List CR) (N : ℕ) : evoP e₂ g F Q N = evoP e₁ g F Q N := by
  have hd : e₂.dt = e₁.dt := by
    obtain ⟨_, _, _, _, _, _, _, d1⟩ := he₁.par h₁.setup h₁.phys
    obtain ⟨_, _, _, _, _, _, _, d2⟩ := he₂.par h₂.setup h₂.phys
    rw [d1, d2]
    rfl
  have hr := rhs_times hs h₁ h₂ he₁ he₂
  have l2 : ∀ F Q, e₂.L2 g F Q = e₁.L2 g F Q := fun F Q => by unfold Eom.L2; rw [hd, hr]
  have l3 : ∀ F Q, e₂.L3 g F Q = e₁.L3 g F Q := fun F Q => by unfold Eom.L3; rw [hd, l2, hr]
  have l4 : ∀ F Q, e₂.L4 g F Q = e₁.L4 g F Q := fun F Q => by unfold Eom.L4; rw [hd, l3, hr]
  have st : ∀ F Q, e₂.stepF g F Q = e₁.stepF g F Q := fun F Q => by unfold Eom.stepF; rw [hd, l2, l3, l4]; simp only [hr]
  induction N with
  | zero => rfl
  | succ N ih => unfold evoP; rw [ih, st]

end times

end SFK
