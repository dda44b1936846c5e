import Mathlib.Data.Rat.Defs
import Mathlib.Algebra.Field.Rat
/-
The value of a number in a text file, as every reader of CSV files understands it: an optional minus sign, decimal digits, optionally a point and more
digits, optionally `e`, a sign and digits.
-/
namespace SFK

/-- the exponent part (or nothing) after the digits `i` before and `f` after the point -/
def decE (i f : List Char) : List Char → Option ℚ
  | [] => some (Nat.ofDigitChars 10 (i ++ f) 0 * 10 ^ (-(f.length : ℤ)))
  | 'e' :: '+' :: k => if k ≠ [] ∧ k.all Char.isDigit then some (Nat.ofDigitChars 10 (i ++ f) 0 * 10 ^ ((Nat.ofDigitChars 10 k 0 : ℤ) - f.length)) else none
  | 'e' :: '-' :: k => if k ≠ [] ∧ k.all Char.isDigit then some (Nat.ofDigitChars 10 (i ++ f) 0 * 10 ^ (-(Nat.ofDigitChars 10 k 0 : ℤ) - f.length)) else none
  | _ => none

/-- what follows the digits `i` -/
def decR (i : List Char) : List Char → Option ℚ
  | '.' :: r => decE i (r.takeWhile Char.isDigit) (r.dropWhile Char.isDigit)
  | r => decE i [] r

/-- a number without sign -/
def decU (s : List Char) : Option ℚ := if s.takeWhile Char.isDigit = [] then none else decR (s.takeWhile Char.isDigit) (s.dropWhile Char.isDigit)

/-- The value of the text. -/
def decVal : List Char → Option ℚ
  | '-' :: t => (decU t).map Neg.neg
  | t => decU t

/-- The values of a line of comma-separated numbers, ended by a newline. -/
def readRow (line : List Char) : Option (List ℚ) :=
  if line.getLast? = some '\n' then (line.dropLast.splitOn ',').mapM decVal else none

example : decVal "-12.5".toList = some (-25 / 2) := by decide +kernel
example : decVal "1.5e-03".toList = some (3 / 2000) := by decide +kernel
example : readRow "0.5,3,-16\n".toList = some [1 / 2, 3, -16] := by decide +kernel
example : decVal "1,5".toList = none := by decide +kernel

end SFK
