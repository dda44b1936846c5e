import Verif.Spec.Setup
import Verif.Spec.Harmonics
import Mathlib.Analysis.SpecialFunctions.Exp
/-
What the initial data are meant to be.
-/
namespace SFK

/-- The compact pulse on `(rl,ru)`, `w=ru-rl`: a polynomial times exponentials vanishing at both ends, zero outside. -/
noncomputable def pulse (rl ru r : ℝ) : ℝ :=
  if rl < r ∧ r < ru then
    ((r - rl) / (ru - rl)) ^ 4 * ((ru - r) / (ru - rl)) ^ 4 *
      (Real.exp (-((ru - rl) / (r - rl))) * Real.exp (-(2 * (ru - rl) / (ru - r))))
  else 0

/-- The sign with which `∂_r f` enters the initial velocity. -/
noncomputable def dirSign (d : List Char) : ℝ :=
  if d = "ingoing".toList then 1 else if d = "outgoing".toList then -1 else 0

/-- The angular factor of the initial data: the real field whose only spherical-harmonic coefficient is 1 at `(l,m)`. -/
noncomputable def realY (l m : ℕ) (θ φ : ℝ) : ℝ := if m = 0 then (Ylm l 0 θ φ).re else 2 * (Ylm l m θ φ).re

/-- The radius of a compactified radius, with infinity represented by `10^12`. -/
noncomputable def codeR (L R : ℝ) : ℝ := if 1 / 10 ^ 16 < |R - L| then physR L R else 10 ^ 12

/-- The parameters of the initial data, as real numbers: amplitude, inner and outer radius (at least `1e-14` apart), and a resolved
harmonic. -/
structure PulseParams (P : ParamRec CR) (amp rl ru : ℝ) (l m : ℕ) : Prop where
  h_amp : P.amp = .fin amp
  h_rl : P.rl = .fin rl
  h_ru : P.ru = .fin ru
  width : 1 / 10 ^ 14 ≤ ru - rl
  h_l : P.l_ang = l
  h_m : P.m_ang = m
  m_le_l : m ≤ l
  l_le : l ≤ P.nl
  m_le : m ≤ P.nm

end SFK
