import Verif.Spec.Run
import Verif.Spec.Modes
import Verif.Model.CR
import Mathlib.Analysis.SpecialFunctions.Log.Base
/-
Vocabulary of C109 and C110: what a spectrum table shows.
-/
namespace SFK
open Scalar CR

/-- The number a table shows for the power `p`: its decimal logarithm, and `-16` for powers below `1e-16`. -/
noncomputable def shown (p : ℝ) : ℝ := if p < 1 / 10 ^ 16 then -16 else Real.logb 10 p

/-- The table with the values `W ix l` on the shells `ix<nx` with the compactified radii `R ix` (outer loop) and the degrees `l<nl` (inner loop). -/
noncomputable def valueTable (io : IOEnv CR) (nx nl : ℕ) (R : ℕ → ℝ) (W : ℕ → ℕ → ℝ) : List (List Char) :=
  "R,l,log(value)\n".toList :: (List.range nx).flatMap fun ix => (List.range nl).map fun l : ℕ => specLine io (fin (R ix)) (fin (l : ℝ)) (fin (W ix l))

end SFK
