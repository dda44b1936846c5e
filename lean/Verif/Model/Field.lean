import Verif.Model.Scalar
/-
Model of /repo/Source/field.hpp and /repo/Source/field.cpp.
-/
namespace SFK

/-- The data members of class Field (field.hpp). -/
structure Field (α : Type) where
  name : String
  n : List α
  l : List α
  np1 : List α
  k : List α
  size : Nat
deriving Repr

namespace Field
variable {α : Type}

/-- field.cpp:4-19, the constructor. -/
def mk' (name : String) (size : Nat) (init : α) : Field α :=
  { name := name, n := List.replicate size init, l := List.replicate size init,
    np1 := List.replicate size init, k := List.replicate size init, size := size }

/-- field.cpp:25-31 `shift`. -/
def shift (f : Field α) : Exec (Field α) := do
  let n ← forRange 0 f.size f.n fun i n => do
    let x ← rd f.np1 i
    wr n i x
  .ok { f with n := n }

end Field
end SFK
