import Mathlib.Data.Int.Log
import Mathlib.Data.Real.Basic
import Mathlib.Data.Real.Archimedean
import Verif.Model.IO
import Verif.Model.CR
/-
How the C++ library prints a `double` (`out<<std::setprecision(p)<<x`, io.cpp:33, 66-70, 108-112, 171-173: without any floating-point format flag this is
the conversion `%.*g` of `printf`, C++17 [facet.num.put.virtuals], C11 7.21.6.1).  The number printed is the exact value of the `double`, a real number.

Simplifications: the rounding of the decimal digits is to nearest, ties to even (glibc in the default rounding mode); a negative zero is printed as `0`
(the library prints `-0`); what is printed for infinities and NaNs is a parameter of `fmtCR`.
-/
namespace SFK
namespace Printf
open scoped Classical

/-- nearest natural number, ties to even -/
noncomputable def rne (y : ℝ) : ℕ :=
  if y - ⌊y⌋₊ < 1 / 2 then ⌊y⌋₊ else if 1 / 2 < y - ⌊y⌋₊ then ⌊y⌋₊ + 1 else if Even ⌊y⌋₊ then ⌊y⌋₊ else ⌊y⌋₊ + 1

/-- The `p` significant digits of a positive number and its decimal exponent: `x` is about `m * 10^(X-(p-1))` with a `p`-digit number `m` (conversion `e`;
if the digits round up to `10^p` the exponent is one larger). -/
noncomputable def sig (p : ℕ) (x : ℝ) : ℕ × ℤ :=
  if rne (x / (10 : ℝ) ^ (Int.log 10 x - (p - 1))) = 10 ^ p then (10 ^ (p - 1), Int.log 10 x + 1)
  else (rne (x / (10 : ℝ) ^ (Int.log 10 x - (p - 1))), Int.log 10 x)

/-- Trailing zeros are removed (conversion `g` without `#`), -/
def strip (s : List Char) : List Char := (s.reverse.dropWhile (· == '0')).reverse

/-- and the decimal point with them if no fractional digit is left. -/
def frac (s : List Char) : List Char := if strip s = [] then [] else '.' :: strip s

/-- Conversion `f` of the digits `D` with decimal exponent `X`. -/
def fixed (D : List Char) (X : ℤ) : List Char :=
  if 0 ≤ X then D.take (X.toNat + 1) ++ frac (D.drop (X.toNat + 1)) else '0' :: frac (List.replicate (-X - 1).toNat '0' ++ D)

/-- The exponent of conversion `e`: a sign and at least two digits. -/
def expo (X : ℤ) : List Char :=
  'e' :: (if X < 0 then '-' else '+') :: (if X.natAbs < 10 then '0' :: Nat.toDigits 10 X.natAbs else Nat.toDigits 10 X.natAbs)

/-- Conversion `e`. -/
def sci (D : List Char) (X : ℤ) : List Char := D.take 1 ++ frac (D.drop 1) ++ expo X

/-- Conversion `g` of a positive number: `f` if the exponent is at least -4 and less than the precision, otherwise `e`. -/
noncomputable def gpos (p : ℕ) (x : ℝ) : List Char :=
  if -4 ≤ (sig p x).2 ∧ (sig p x).2 < p then fixed (Nat.toDigits 10 (sig p x).1) (sig p x).2 else sci (Nat.toDigits 10 (sig p x).1) (sig p x).2

/-- `out<<std::setprecision(p)<<x` for a finite `x`. -/
noncomputable def g (p : ℕ) (x : ℝ) : List Char := if x = 0 then ['0'] else if x < 0 then '-' :: gpos p (-x) else gpos p x

end Printf

/-- The printing of the numbers of the files (io.cpp: `setprecision(16)` everywhere); `nan`: what is printed for a number that is not finite. -/
noncomputable def fmtCR (nan : List Char) : CR → List Char
  | .fin x => Printf.g 16 x
  | _ => nan

end SFK
