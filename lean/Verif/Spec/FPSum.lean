import Verif.Spec.FP
/-
Vocabulary of the rounding bounds with explicit constants.
-/
namespace SFK
open Scalar CR

/-- `z` is a rounding of `r` with relative error `eps`, or absolute error `eps tau` where there is underflow, and the sign is right;
`tau` is the smallest normal number of the format. -/
def RoundsTo {T : Type} (val : T → Option ℝ) (eps tau Omega : ℝ) (z : T) (r : ℝ) : Prop :=
  |r| ≤ Omega → ∃ y, val z = some y ∧ |y - r| ≤ eps * (|r| + tau) ∧ (0 ≤ r → 0 ≤ y)

/-- The additions, divisions, square roots and squares of the format round in this way, and the literal `0` is zero. -/
structure Format.Sharp (φ : Format) (tau : ℝ) : Prop where
  tau_nonneg : 0 ≤ tau
  zero : φ.val 0 = some 0
  add : ∀ a b x y, φ.val a = some x → φ.val b = some y → RoundsTo φ.val φ.eps tau φ.Omega (a + b) (x + y)
  div : ∀ a b x y, φ.val a = some x → φ.val b = some y → y ≠ 0 → RoundsTo φ.val φ.eps tau φ.Omega (a / b) (x / y)
  rt : ∀ a x, φ.val a = some x → 0 ≤ x → RoundsTo φ.val φ.eps tau φ.Omega (Scalar.rt a) (Real.sqrt x)
  sq_nonneg : ∀ a y, φ.val (Scalar.pown a 2) = some y → 0 ≤ y
  rt_nonneg : ∀ a y, φ.val (Scalar.rt a) = some y → 0 ≤ y

end SFK
