import Verif.Spec.Decimal
import Verif.Spec.Run
import Verif.Model.Log
/-
Vocabulary of C118: the words of a line, the lines of a log.
-/
namespace SFK

/-- the words of a text, `acc` being the (reversed) beginning of the current word -/
def wordsFrom (acc : List Char) : List Char → List (List Char)
  | [] => if acc = [] then [] else [acc.reverse]
  | c :: t => if c = ' ' ∨ c = '\n' then (if acc = [] then wordsFrom [] t else acc.reverse :: wordsFrom [] t) else wordsFrom (c :: acc) t

/-- The words of a text: the longest pieces without blanks and newlines (what `awk` or python's `split` calls fields). -/
def words (s : List Char) : List (List Char) := wordsFrom [] s

example : words "  1.5 Grid 0\n".toList = ["1.5".toList, "Grid".toList, "0".toList] := by decide +kernel

/-- The time a line of the log shows. -/
def logTime (line : List Char) : Option ℚ := (words line).head?.bind decVal

/-- The lines of diagnostics in the log of a run. -/
noncomputable def logLines (nan : List Char) (events : List (Event CR)) : List (List Char) :=
  (events.filterMap diagOf).map fun d => Log.line (Log.fmt nan) d.1 d.2.1 d.2.2

end SFK
