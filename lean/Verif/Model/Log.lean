import Verif.Model.Printf
/-
Model of the lines of diagnostics in the log (main.cpp:41-50, 75-84; sim_class.py:125-130 keeps them in `out.txt`).
-/
namespace SFK
namespace Log

/-- `std::setw(w)<<s`: padded on the left with blanks (main.cpp:42-49, 76-83; no adjustment flag is set, the fill character is the blank). -/
def setw (w : ℕ) (s : List Char) : List Char := List.replicate (w - s.length) ' ' ++ s

/-- main.cpp:41-50 and 75-84: the time, the word `Grid`, the number of the grid (`i=0`), the residual, the total variation.  `fmt` prints a `double`.  The first
line prints the integer 0 as time, which `fmt` of zero gives as well. -/
def line {α : Type} (fmt : α → List Char) (t r v : α) : List Char :=
  setw 16 (fmt t) ++ setw 16 "Grid ".toList ++ "0".toList ++ setw 16 (fmt r) ++ setw 16 (fmt v) ++ "\n".toList

/-- The printing of a number on `std::cout`, whose precision is never set (main.cpp): six digits; `nan`: what is printed for a number that is not finite. -/
noncomputable def fmt (nan : List Char) : CR → List Char
  | .fin x => Printf.g 6 x
  | _ => nan

end Log
end SFK
