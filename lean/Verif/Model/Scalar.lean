import Verif.Model.Base
/-
The scalar type `double` of the C++ code, as a class of operations *without laws*.
Theorems stated for every `[Scalar α]` use no property of the arithmetic at all, so they hold
for IEEE doubles (with any rounding, NaN, signed zeros) as well as for exact numbers.
-/
namespace SFK

/-- The operations on `double` that /repo/Source uses.
`lit q` is a literal or an integer converted to `double`; `pown x k` is `pow(x,k)` with an integer literal
exponent; `rt x` is `pow(x,0.5)`; `lt a b` is `a<b`. -/
class Scalar (α : Type) where
  add : α → α → α
  sub : α → α → α
  mul : α → α → α
  div : α → α → α
  neg : α → α
  lit : Rat → α
  pown : α → Nat → α
  rt : α → α
  exp : α → α
  log : α → α
  cos : α → α
  sin : α → α
  acos : α → α
  fabs : α → α
  lt : α → α → Bool
  pi : α

namespace Scalar
variable {α : Type} [Scalar α]
scoped instance (priority := low) instAddS : Add α := ⟨Scalar.add⟩
scoped instance (priority := low) instSubS : Sub α := ⟨Scalar.sub⟩
scoped instance (priority := low) instMulS : Mul α := ⟨Scalar.mul⟩
scoped instance (priority := low) instDivS : Div α := ⟨Scalar.div⟩
scoped instance (priority := low) instNegS : Neg α := ⟨Scalar.neg⟩
scoped instance (priority := low) instOfNatS (n : Nat) : OfNat α n := ⟨Scalar.lit (n : Rat)⟩
scoped instance (priority := low) instInhS : Inhabited α := ⟨Scalar.lit 0⟩
end Scalar

open Scalar

/-- `double(n)` for an unsigned integer `n`. -/
def dbl {α : Type} [Scalar α] (n : Nat) : α := Scalar.lit (n : Rat)

/-- `10^(-k)` as a literal, e.g. `1e-16`. -/
def tenth {α : Type} [Scalar α] (k : Nat) : α := Scalar.lit (1 / (10 ^ k : Rat))

/-- `std::complex<double>` (the type `cplx` of shtns.h). -/
structure Cx (α : Type) where
  re : α
  im : α
deriving DecidableEq, Repr

instance {α : Type} [Inhabited α] : Inhabited (Cx α) := ⟨⟨default, default⟩⟩

/-- Lean's hardware floats: makes the model executable for experiments (no theorem uses it). -/
instance : Scalar Float where
  add := (· + ·)
  sub := (· - ·)
  mul := (· * ·)
  div := (· / ·)
  neg := (- ·)
  lit q := Float.ofInt q.num / Float.ofNat q.den
  pown x k := Float.pow x (Float.ofNat k)
  rt x := Float.pow x 0.5
  exp := Float.exp
  log := Float.log
  cos := Float.cos
  sin := Float.sin
  acos := Float.acos
  fabs := Float.abs
  lt a b := decide (a < b)
  pi := 3.141592653589793

end SFK
