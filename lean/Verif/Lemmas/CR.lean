import Verif.Model.CR
/-
`bad` is absorbing.
-/
namespace SFK.CR
open Scalar

@[simp] theorem bad_add (c : CR) : (bad + c : CR) = bad := rfl
@[simp] theorem add_bad (c : CR) : (c + bad : CR) = bad := by cases c <;> rfl
@[simp] theorem bad_sub (c : CR) : (bad - c : CR) = bad := rfl
@[simp] theorem sub_bad (c : CR) : (c - bad : CR) = bad := by cases c <;> rfl
@[simp] theorem bad_mul (c : CR) : (bad * c : CR) = bad := rfl
@[simp] theorem mul_bad (c : CR) : (c * bad : CR) = bad := by cases c <;> rfl
@[simp] theorem bad_div (c : CR) : (bad / c : CR) = bad := rfl
@[simp] theorem div_bad (c : CR) : (c / bad : CR) = bad := by cases c <;> rfl
@[simp] theorem neg_bad : (-bad : CR) = bad := rfl
@[simp] theorem pown_bad (k : ℕ) : (Scalar.pown bad k : CR) = bad := rfl
@[simp] theorem rt_bad : (Scalar.rt bad : CR) = bad := rfl
@[simp] theorem exp_bad : (Scalar.exp bad : CR) = bad := rfl
@[simp] theorem fabs_bad : (Scalar.fabs bad : CR) = bad := rfl
@[simp] theorem lt_bad (c : CR) : Scalar.lt c bad = false := by cases c <;> rfl
@[simp] theorem bad_lt (c : CR) : Scalar.lt bad c = false := rfl

theorem add_fin {c d : CR} {x : ℝ} (h : c + d = fin x) : ∃ a b, c = fin a ∧ d = fin b ∧ x = a + b := by
  cases c <;> cases d <;> simp_all
theorem sub_fin {c d : CR} {x : ℝ} (h : c - d = fin x) : ∃ a b, c = fin a ∧ d = fin b ∧ x = a - b := by
  cases c <;> cases d <;> simp_all
theorem mul_fin {c d : CR} {x : ℝ} (h : c * d = fin x) : ∃ a b, c = fin a ∧ d = fin b ∧ x = a * b := by
  cases c <;> cases d <;> simp_all
theorem div_fin {c d : CR} {x : ℝ} (h : c / d = fin x) : ∃ a b, c = fin a ∧ d = fin b ∧ b ≠ 0 ∧ x = a / b := by
  cases c <;> cases d <;> simp_all [fin_div_eq]
  split at h <;> simp_all

end SFK.CR
