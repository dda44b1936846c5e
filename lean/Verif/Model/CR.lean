import Verif.Model.Scalar
import Mathlib.Analysis.SpecialFunctions.Trigonometric.Inverse
import Mathlib.Analysis.SpecialFunctions.Log.Basic
import Mathlib.Analysis.SpecialFunctions.Sqrt
/-
Checked real numbers: exact arithmetic in which every operation that IEEE arithmetic would answer with an
infinity or a NaN (division by zero, root of a negative number, logarithm of a non-positive number,
arccosine outside [-1,1]) yields the absorbing value `bad`.
-/
namespace SFK

/-- A finite real or the marker of a non-finite result. -/
inductive CR where
  | fin (x : ℝ)
  | bad

namespace CR

/-- lift a unary function -/
def map (f : ℝ → ℝ) : CR → CR
  | fin x => fin (f x)
  | bad => bad

/-- lift a binary function -/
def map2 (f : ℝ → ℝ → ℝ) : CR → CR → CR
  | fin x, fin y => fin (f x y)
  | _, _ => bad

noncomputable instance : Scalar CR where
  add := map2 (· + ·)
  sub := map2 (· - ·)
  mul := map2 (· * ·)
  div
    | fin a, fin b => open Classical in if b = 0 then bad else fin (a / b)
    | _, _ => bad
  neg := map (- ·)
  lit q := fin (q : ℝ)
  pown x k := map (· ^ k) x
  rt
    | fin x => open Classical in if x < 0 then bad else fin (Real.sqrt x)
    | bad => bad
  exp := map Real.exp
  log
    | fin x => open Classical in if x ≤ 0 then bad else fin (Real.log x)
    | bad => bad
  cos := map Real.cos
  sin := map Real.sin
  acos
    | fin x => open Classical in if -1 ≤ x ∧ x ≤ 1 then fin (Real.arccos x) else bad
    | bad => bad
  fabs := map (|·|)
  lt
    | fin a, fin b => open Classical in decide (a < b)
    | _, _ => false
  pi := fin Real.pi

open Scalar

@[simp] theorem fin_add (a b : ℝ) : (fin a + fin b : CR) = fin (a + b) := rfl
@[simp] theorem fin_sub (a b : ℝ) : (fin a - fin b : CR) = fin (a - b) := rfl
@[simp] theorem fin_mul (a b : ℝ) : (fin a * fin b : CR) = fin (a * b) := rfl
@[simp] theorem fin_neg (a : ℝ) : (- fin a : CR) = fin (-a) := rfl
theorem fin_div_eq (a b : ℝ) : (fin a / fin b : CR) = open Classical in if b = 0 then bad else fin (a / b) := rfl
@[simp] theorem fin_div (a b : ℝ) (h : b ≠ 0) : (fin a / fin b : CR) = fin (a / b) := by
  rw [fin_div_eq, if_neg h]
@[simp] theorem fin_div_zero (a : ℝ) : (fin a / fin 0 : CR) = bad := by
  rw [fin_div_eq, if_pos rfl]
@[simp] theorem fin_lit (q : Rat) : (Scalar.lit q : CR) = fin (q : ℝ) := rfl
theorem fin_ofNat (n : Nat) : (@OfNat.ofNat CR n (instOfNatS n) : CR) = fin (n : ℝ) := by
  show fin (((n : Rat) : ℝ)) = _
  simp
@[simp] theorem fin_ofNat_zero : ((0 : CR)) = fin 0 := by
  rw [fin_ofNat]; simp
@[simp] theorem fin_ofNat_one : ((1 : CR)) = fin 1 := by
  rw [fin_ofNat]; simp
@[simp] theorem fin_ofNat' (n : Nat) [n.AtLeastTwo] :
    (@OfNat.ofNat CR n (instOfNatS n) : CR) = fin (OfNat.ofNat n) := by
  rw [fin_ofNat]; rfl
@[simp] theorem fin_pown (a : ℝ) (k : Nat) : (Scalar.pown (fin a) k : CR) = fin (a ^ k) := rfl
@[simp] theorem fin_rt (a : ℝ) (h : 0 ≤ a) : (Scalar.rt (fin a) : CR) = fin (Real.sqrt a) := by
  show (open Classical in if a < 0 then bad else fin (Real.sqrt a)) = _
  rw [if_neg (not_lt.mpr h)]
@[simp] theorem fin_exp (a : ℝ) : (Scalar.exp (fin a) : CR) = fin (Real.exp a) := rfl
@[simp] theorem fin_log (a : ℝ) (h : 0 < a) : (Scalar.log (fin a) : CR) = fin (Real.log a) := by
  show (open Classical in if a ≤ 0 then bad else fin (Real.log a)) = _
  rw [if_neg (not_le.mpr h)]
@[simp] theorem fin_cos (a : ℝ) : (Scalar.cos (fin a) : CR) = fin (Real.cos a) := rfl
@[simp] theorem fin_sin (a : ℝ) : (Scalar.sin (fin a) : CR) = fin (Real.sin a) := rfl
@[simp] theorem fin_acos (a : ℝ) (h1 : -1 ≤ a) (h2 : a ≤ 1) :
    (Scalar.acos (fin a) : CR) = fin (Real.arccos a) := by
  show (open Classical in if -1 ≤ a ∧ a ≤ 1 then fin (Real.arccos a) else bad) = _
  rw [if_pos ⟨h1, h2⟩]
@[simp] theorem fin_fabs (a : ℝ) : (Scalar.fabs (fin a) : CR) = fin |a| := rfl
@[simp] theorem fin_lt (a b : ℝ) : (Scalar.lt (fin a) (fin b) = true) ↔ a < b := by
  show (decide (a < b) = true) ↔ _
  simp
theorem fin_lt_false (a b : ℝ) : (Scalar.lt (fin a) (fin b) = false) ↔ b ≤ a := by
  rw [← Bool.not_eq_true, fin_lt, not_lt]
@[simp] theorem fin_pi : (Scalar.pi : CR) = fin Real.pi := rfl
@[simp] theorem fin_dbl (n : Nat) : (dbl n : CR) = fin (n : ℝ) := by
  show fin (((n : Rat) : ℝ)) = _
  simp
@[simp] theorem fin_tenth (k : Nat) : (tenth k : CR) = fin (1 / 10 ^ k) := by
  show fin (((1 / (10 ^ k : Rat) : Rat) : ℝ)) = _
  congr 1
  push_cast
  rfl
@[simp] theorem fin_inj {a b : ℝ} : (fin a = fin b) ↔ a = b := by
  constructor
  · intro h; cases h; rfl
  · rintro rfl; rfl
@[simp] theorem fin_ne_bad (a : ℝ) : (fin a = bad) ↔ False := by
  constructor
  · intro h; cases h
  · exact False.elim
theorem default_eq : (default : CR) = fin 0 := by
  show fin ((0 : Rat) : ℝ) = _
  simp

end CR
end SFK
