import Verif.Lemmas.FDReal
/-
The numbers behind C101 for the test `derivatives` of test_finite_diff.cpp: the errors of the stencils on Taylor polynomials of `x sin x`, in exact
rational arithmetic.
-/
namespace SFK
namespace FDTest

/-- `∑_{i<n} f i`, as a loop -/
def sumQ (f : ℕ → ℚ) : ℕ → ℚ
  | 0 => 0
  | n + 1 => sumQ f n + f n

def absQ (x : ℚ) : ℚ := if x < 0 then -x else x

/-- Taylor polynomial of the sine of degree 21 -/
def sinQ (x : ℚ) : ℚ := sumQ (fun k => (-1) ^ k * x ^ (2 * k + 1) / ((2 * k + 1).factorial : ℚ)) 11
/-- Taylor polynomial of the cosine of degree 20 -/
def cosQ (x : ℚ) : ℚ := sumQ (fun k => (-1) ^ k * x ^ (2 * k) / ((2 * k).factorial : ℚ)) 11

/-- error of row `i` of the first derivative with `n` points -/
def err1 (n i : ℕ) : ℚ :=
  sumQ (fun j => FD.q1 (i - FD.b1 n i) j * (((FD.b1 n i + j : ℕ) : ℚ) / ((n - 1 : ℕ) : ℚ) * sinQ (((FD.b1 n i + j : ℕ) : ℚ) / ((n - 1 : ℕ) : ℚ)))) 7
      * ((n - 1 : ℕ) : ℚ)
    - ((i : ℚ) / ((n - 1 : ℕ) : ℚ) * cosQ ((i : ℚ) / ((n - 1 : ℕ) : ℚ)) + sinQ ((i : ℚ) / ((n - 1 : ℕ) : ℚ)))

/-- error of row `i` of the second derivative with `n` points -/
def err2 (n i : ℕ) : ℚ :=
  sumQ (fun j => FD.q2 (i - FD.b2 n i) j * (((FD.b2 n i + j : ℕ) : ℚ) / ((n - 1 : ℕ) : ℚ) * sinQ (((FD.b2 n i + j : ℕ) : ℚ) / ((n - 1 : ℕ) : ℚ)))) 8
      * ((n - 1 : ℕ) : ℚ) ^ 2
    - (-((i : ℚ) / ((n - 1 : ℕ) : ℚ)) * sinQ ((i : ℚ) / ((n - 1 : ℕ) : ℚ)) + 2 * cosQ ((i : ℚ) / ((n - 1 : ℕ) : ℚ)))

set_option maxRecDepth 100000 in
theorem cert33_1 : (17 / 10 ^ 10 : ℚ) < sumQ (fun i => absQ (err1 33 i)) 33 := by decide +kernel

set_option maxRecDepth 100000 in
theorem cert65_1 : sumQ (fun i => absQ (err1 65 i)) 65 < (40 / 10 ^ 12 : ℚ) := by decide +kernel

set_option maxRecDepth 100000 in
theorem cert33_2 : (82 / 10 ^ 10 : ℚ) < sumQ (fun i => absQ (err2 33 i)) 33 := by decide +kernel

set_option maxRecDepth 100000 in
theorem cert65_2 : sumQ (fun i => absQ (err2 65 i)) 65 < (14 / 10 ^ 11 : ℚ) := by decide +kernel

end FDTest
end SFK
