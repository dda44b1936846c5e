import Verif.Model.Params
/-
Model of what the construction of the parameters prints to standard output (/repo/Source/params.cpp), which `launch_run` of
sim_class.py copies to `out.txt`.
-/
namespace SFK
open Text
namespace Params

/-- What the constructor does with the text of a parameter: `std::stoi`, `std::stod`, or nothing. -/
inductive Kind where
  | int
  | dbl
  | str
deriving DecidableEq

/-- params.cpp:14-53: the parameters in the order in which the constructor reads them, with the conversion applied to each. -/
def order : List (String × Kind) :=
  [("nt", .int), ("nx", .int), ("nl", .int), ("nm", .int), ("nlat", .int), ("nphi", .int), ("t_step_save", .int), ("dt", .dbl),
   ("compactification_length", .dbl), ("Rmax", .dbl), ("Rmin", .dbl), ("black_hole_mass", .dbl), ("black_hole_spin", .dbl),
   ("km1", .dbl), ("k0", .dbl), ("k1", .dbl), ("k2", .dbl), ("V2", .dbl), ("V3", .dbl), ("V4", .dbl), ("initial_data_type", .str),
   ("initial_data_direction", .str), ("amp", .dbl), ("rl", .dbl), ("ru", .dbl), ("l_ang", .int), ("m_ang", .int)]

/-- The conversion of a text, up to its result: `.ok` if it returns, the exception if it throws. -/
def check {α : Type} (stod : List Char → Option α) : Kind → List Char → Exec Unit
  | .int, t => do let _ ← stoi t; .ok ()
  | .dbl, t => match stod t with
    | some _ => .ok ()
    | none => .error .exc
  | .str, _ => .ok ()

/-- params.cpp:61-87 `_read`: what it prints. Line 81: the name, a tab and the value; line 86: the error message; nothing if the
assertion of line 66 fails (its message goes to standard error). -/
def readPrints (ndebug : Bool) (file : Option (List Char)) (name : String) : List Char :=
  match read ndebug file name with
  | .ok v => name.toList ++ '\t' :: v ++ ['\n']
  | .error (.exit _) => "ERROR: did not find ".toList ++ name.toList ++ ['\n']
  | .error _ => []

/-- params.cpp:14-54: what the statements of the constructor print, from the given parameter on; printing ends where the process exits
or an exception leaves the constructor. -/
def printsFrom {α : Type} (stod : List Char → Option α) (ndebug : Bool) (file : Option (List Char)) : List (String × Kind) → List Char
  | [] => "Finished initializing Params\n".toList
  | (n, k) :: rest => readPrints ndebug file n ++
    match (do let t ← read ndebug file n; check stod k t : Exec Unit) with
    | .ok _ => printsFrom stod ndebug file rest
    | .error _ => []

/-- params.cpp:11-55: what the constructor prints. -/
def prints {α : Type} (stod : List Char → Option α) (ndebug : Bool) (file : Option (List Char)) : List Char :=
  "Initializing Params\n".toList ++ printsFrom stod ndebug file order

end Params
end SFK
