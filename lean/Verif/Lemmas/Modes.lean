import Verif.Spec.Modes
import Verif.Props.Symmetry
import Mathlib.Tactic.LinearCombination
/-
Lemmas for C105: a sequence of period `n` is a combination of `cos(mφ)` and `sin(mφ)` exactly if it satisfies their recurrence.
-/
namespace SFK
open Scalar CR

theorem rec_eq {c : ℝ} {u w : ℕ → ℝ} (hu : ∀ k, u (k + 2) = 2 * c * u (k + 1) - u k) (hw : ∀ k, w (k + 2) = 2 * c * w (k + 1) - w k)
    (h0 : u 0 = w 0) (h1 : u 1 = w 1) (k : ℕ) : u k = w k := by
  have : u k = w k ∧ u (k + 1) = w (k + 1) := by
    induction k with
    | zero => exact ⟨h0, h1⟩
    | succ k ih => exact ⟨ih.2, by rw [hu, hw, ih.1, ih.2]⟩
  exact this.1

theorem cos_rec (t : ℝ) (k : ℕ) : Real.cos ((k + 2 : ℕ) * t) = 2 * Real.cos t * Real.cos ((k + 1 : ℕ) * t) - Real.cos (k * t) := by
  have e1 : ((k + 2 : ℕ) : ℝ) * t = (k + 1 : ℕ) * t + t := by push_cast; ring
  have e2 : (k : ℝ) * t = (k + 1 : ℕ) * t - t := by push_cast; ring
  rw [e1, e2, Real.cos_add, Real.cos_sub]
  ring

theorem sin_rec (t : ℝ) (k : ℕ) : Real.sin ((k + 2 : ℕ) * t) = 2 * Real.cos t * Real.sin ((k + 1 : ℕ) * t) - Real.sin (k * t) := by
  have e1 : ((k + 2 : ℕ) : ℝ) * t = (k + 1 : ℕ) * t + t := by push_cast; ring
  have e2 : (k : ℝ) * t = (k + 1 : ℕ) * t - t := by push_cast; ring
  rw [e1, e2, Real.sin_add, Real.sin_sub]
  ring

/-- the solution with start values 0, `δ` when `c²=1` -/
theorem rec_lin {c δ : ℝ} (hc : c ^ 2 = 1) {u : ℕ → ℝ} (hu : ∀ k, u (k + 2) = 2 * c * u (k + 1) - u k) (h0 : u 0 = 0) (h1 : u 1 = δ) (k : ℕ) :
    u k = k * c ^ (k + 1) * δ := by
  refine rec_eq (w := fun k : ℕ => (k : ℝ) * c ^ (k + 1) * δ) hu (fun k => ?_) (by rw [h0]; simp) (by rw [h1]; simp [hc]) k
  push_cast
  have h2 : c ^ (k + 2 + 1) = c ^ (k + 1) := by rw [show k + 2 + 1 = (k + 1) + 2 by ring, pow_add, hc, mul_one]
  have h3 : c * c ^ (k + 1 + 1) = c ^ (k + 1) := by rw [pow_succ c (k + 1), mul_comm, mul_assoc, ← pow_two, hc, mul_one]
  rw [h2]
  linear_combination (-2 * ((k : ℝ) + 1) * δ) * h3

/-- A sequence of period `n` satisfying the recurrence of angle `t`, `n t` a multiple of a turn. -/
theorem rec_periodic {n m : ℕ} (hn : 0 < n) {z : ℕ → ℝ} (hp : z n = z 0)
    (hz : ∀ k, z (k + 2) = 2 * Real.cos (m * (2 * Real.pi / n)) * z (k + 1) - z k) :
    ∃ a b : ℝ, ∀ k, z k = a * Real.cos (k * (m * (2 * Real.pi / n))) + b * Real.sin (k * (m * (2 * Real.pi / n))) := by
  have hn' : (n : ℝ) ≠ 0 := by exact_mod_cast hn.ne'
  have hcn : Real.cos (n * (m * (2 * Real.pi / n))) = 1 := by
    rw [show (n : ℝ) * (m * (2 * Real.pi / n)) = m * (2 * Real.pi) by field_simp]
    exact Real.cos_nat_mul_two_pi m
  generalize (m : ℝ) * (2 * Real.pi / n) = t at *
  by_cases hs : Real.sin t = 0
  · have hc : Real.cos t ^ 2 = 1 := by have := Real.sin_sq_add_cos_sq t; rw [hs] at this; linarith
    have hd := rec_lin (δ := z 1 - z 0 * Real.cos t) hc (u := fun k : ℕ => z k - z 0 * Real.cos (k * t))
      (fun k => by beta_reduce; rw [hz k, cos_rec]; ring) (by simp) (by simp)
    have hδ : z 1 - z 0 * Real.cos t = 0 := by
      have := hd n
      beta_reduce at this
      rw [hp, hcn, mul_one, sub_self] at this
      have hcp : Real.cos t ^ (n + 1) ≠ 0 := pow_ne_zero _ (fun h => by rw [h] at hc; norm_num at hc)
      rcases mul_eq_zero.mp this.symm with h | h
      · exact absurd h (mul_ne_zero hn' hcp)
      · exact h
    refine ⟨z 0, 0, fun k => ?_⟩
    have := hd k
    rw [hδ, mul_zero] at this
    beta_reduce at this
    linarith
  · refine ⟨z 0, (z 1 - z 0 * Real.cos t) / Real.sin t, fun k => rec_eq (w := fun k : ℕ => z 0 * Real.cos (k * t) + (z 1 - z 0 * Real.cos t) / Real.sin t * Real.sin (k * t))
      hz (fun k => ?_) (by simp) ?_ k⟩
    · beta_reduce
      rw [cos_rec, sin_rec]; ring
    · beta_reduce
      push_cast
      rw [one_mul]
      field_simp
      ring

/-- the same for values on a circle of `n` points -/
theorem circle_iff {n m : ℕ} (hn : 0 < n) (y : ℕ → ℝ) :
    (∃ a b : ℝ, ∀ ip, ip < n → y ip = a * Real.cos (m * phiN n ip) + b * Real.sin (m * phiN n ip)) ↔
    ∀ ip, ip < n → y ((ip + 1) % n) + y ((ip + (n - 1)) % n) = 2 * Real.cos (m * (2 * Real.pi / n)) * y ip := by
  have hn' : (n : ℝ) ≠ 0 := by exact_mod_cast hn.ne'
  have hph : ∀ k : ℕ, (m : ℝ) * phiN n k = k * (m * (2 * Real.pi / n)) := fun k => by unfold phiN; ring
  constructor
  · rintro ⟨a, b, hy⟩ ip hip
    have per : ∀ k, y (k % n) = a * Real.cos (k * (m * (2 * Real.pi / n))) + b * Real.sin (k * (m * (2 * Real.pi / n))) := by
      intro k
      rw [hy _ (Nat.mod_lt _ hn), hph]
      have e : (k : ℝ) * (m * (2 * Real.pi / n)) = (k % n : ℕ) * (m * (2 * Real.pi / n)) + (m * (k / n) : ℕ) * (2 * Real.pi) := by
        have := Nat.mod_add_div k n
        have h2 : (k : ℝ) = (k % n : ℕ) + n * (k / n : ℕ) := by exact_mod_cast this.symm
        rw [h2]
        push_cast
        field_simp
      rw [e, Real.cos_add_nat_mul_two_pi, Real.sin_add_nat_mul_two_pi]
    have hyi := per ip
    rw [Nat.mod_eq_of_lt hip] at hyi
    rw [per, per, hyi]
    have e1 : ((ip + 1 : ℕ) : ℝ) * (m * (2 * Real.pi / n)) = ip * (m * (2 * Real.pi / n)) + m * (2 * Real.pi / n) := by push_cast; ring
    have e2 : ((ip + (n - 1) : ℕ) : ℝ) * (m * (2 * Real.pi / n)) = ip * (m * (2 * Real.pi / n)) - m * (2 * Real.pi / n) + m * (2 * Real.pi) := by
      rw [Nat.cast_add, Nat.cast_sub hn]; push_cast; field_simp; ring
    rw [e1, e2, Real.cos_add_nat_mul_two_pi, Real.sin_add_nat_mul_two_pi, Real.cos_add, Real.cos_sub, Real.sin_add, Real.sin_sub]
    ring
  · intro hy
    obtain ⟨a, b, h⟩ := rec_periodic (m := m) hn (z := fun k => y (k % n)) (by simp) (fun k => by
      have := hy ((k + 1) % n) (Nat.mod_lt _ hn)
      rw [Nat.mod_add_mod, Nat.mod_add_mod, show k + 1 + (n - 1) = k + n by omega, Nat.add_mod_right] at this
      beta_reduce
      rw [← this]
      ring_nf)
    refine ⟨a, b, fun ip hip => ?_⟩
    have := h ip
    beta_reduce at this
    rw [Nat.mod_eq_of_lt hip] at this
    rw [this, hph]

end SFK
