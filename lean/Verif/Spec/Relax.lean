import Verif.Spec.Refine
/-
Vocabulary of C97: repeated filtering, its limit, and the equation in time whose right-hand side is the limit of filtering what `set_k`
returns.
-/
namespace SFK
open Scalar CR Filter Topology

/-- One call of `Grid::filter` on each of the two fields takes the finite state `s` to `s'`, whatever uninitialised memory holds. -/
def Filtered (g : Grid CR) {n : ℕ} (s s' : State n) : Prop :=
  ∀ J : Junk (Cx CR), g.filter J (arr s.1) = .ok (arr s'.1) ∧ g.filter J (arr s.2) = .ok (arr s'.2)

/-- `w j` is what `j` successive calls of the filter make of `s`. -/
def FilterSeq (g : Grid CR) {n : ℕ} (s : State n) (w : ℕ → State n) : Prop := w 0 = s ∧ ∀ j, Filtered g (w j) (w (j + 1))

/-- Filtering `s` again and again leads to `z`. -/
def FilterLimit (g : Grid CR) {n : ℕ} (s z : State n) : Prop := ∃ w, FilterSeq g s w ∧ Tendsto w atTop (𝓝 z)

/-- `set_k` returns finite slopes `d` for the state `s`. -/
def SlopesAt (g : Grid CR) (P : ParamRec CR) {n : ℕ} (s d : State n) : Prop :=
  ∀ e, Eom.Of g P e → Slopes e g (arr s.1) (arr s.2) (arr d.1) (arr d.2)

/-- At all times of `[0,T]` the derivative of `u` is what repeated filtering makes of the slopes `set_k` returns for `u(t)`. -/
def SolvesFiltered (g : Grid CR) (P : ParamRec CR) {n : ℕ} (u : ℝ → State n) (T : ℝ) : Prop :=
  ∀ t ∈ Set.Icc 0 T, ∃ d d', SlopesAt g P (u t) d ∧ FilterLimit g d d' ∧ HasDerivAt u d' t

/-- The coefficients the filter leaves alone: the constant, and the top degree and the top order, where its loops do not reach. -/
noncomputable def keptC (P : ParamRec CR) (c : ℕ → ℕ → ℂ) (l m : ℕ) : ℂ := if l = 0 ∨ l = P.nl ∨ m = P.nm then c l m else 0

end SFK
