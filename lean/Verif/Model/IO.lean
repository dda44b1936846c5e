import Verif.Model.Grid
import Verif.Model.Params
/-
Model of /repo/Source/io.cpp, and of programs with output.

A program's output is the list of the external events it performs, in order; what the files contain after a run (or after a crash in
the middle of it) is obtained by replaying the events that happened.
-/
namespace SFK
open Scalar

/-- What a program does to the outside world.
* `create path`: a file is opened for appending, which creates it if it is not there;
* `append path text`: `text` is written to the end of the file and flushed (`std::endl`);
* `diag t res tv`: a line of diagnostics with these three numbers is printed to the standard output (main.cpp:42-50 and 72-80). -/
inductive Event (α : Type) where
  | create (path : List Char)
  | append (path text : List Char)
  | diag (t res tv : α)

/-- A program part: the events it performs, and its result. -/
structure Prog (α σ : Type) where
  events : List (Event α)
  result : Exec σ

namespace Prog
variable {α σ τ : Type}

/-- sequencing -/
def bind (p : Prog α σ) (f : σ → Prog α τ) : Prog α τ :=
  match p.result with
  | .ok x => ⟨p.events ++ (f x).events, (f x).result⟩
  | .error e => ⟨p.events, .error e⟩

instance : Monad (Prog α) where
  pure x := ⟨[], .ok x⟩
  bind := bind

/-- a part without external effects -/
def lift (x : Exec σ) : Prog α σ := ⟨[], x⟩

/-- one event -/
def emit (e : Event α) : Prog α Unit := ⟨[e], .ok ()⟩

/-- `cnt` iterations starting at counter `i` -/
def forN : Nat → Nat → σ → (Nat → σ → Prog α σ) → Prog α σ
  | 0, _, s, _ => ⟨[], .ok s⟩
  | c + 1, i, s, b => bind (b i s) fun s' => forN c (i + 1) s' b

/-- `for (size_t i=lo; i<hi; i++) body` -/
def forRange (lo hi : Nat) (s : σ) (b : Nat → σ → Prog α σ) : Prog α σ := forN (hi - lo) lo s b

end Prog

/-- The outside world as far as output is concerned: whether a file can be opened for appending, and how a number is printed with
`std::setprecision(16)`. -/
structure IOEnv (α : Type) where
  canOpen : List Char → Bool
  fmt : α → List Char

namespace Csv
variable {α : Type} [Scalar α]

/-- `std::to_string(size_t)`. -/
def ustr (n : Nat) : List Char := Nat.toDigits 10 n

/-- io.cpp:67,109: the value written for a power, `(p<1e-16) ? -16 : log(p)/log(10)`. -/
def logValue (p : α) : α := if lt p (tenth 16) then lit (-16) else log p / log 10

/-- A header line made of labels separated by commas (io.cpp:59-63, 101-105, 155-159). -/
def header (labels : List String) : List Char := (",".intercalate labels).toList ++ ['\n']

/-- `out.open(file_name,std::ios::app)` (io.cpp:27,55,97,152). -/
def openApp (io : IOEnv α) (file : List Char) : Prog α Unit := if io.canOpen file then Prog.emit (.create file) else pure ()

/-- The optional header (io.cpp:58-63, 100-105, 154-159). -/
def putHeader (file : List Char) (save_coords : Bool) (labels : List String) : Prog α Unit :=
  if save_coords then Prog.emit (.append file (header labels)) else pure ()

/-- io.cpp:19-41 `write` (`itm` is a `size_t`; `n` is an `int`, so at most 2^31-1 values are assumed). -/
def write (io : IOEnv α) (name : List Char) (itm : Nat) (vals : List α) : Prog α Unit := do
  let file := name ++ "_".toList ++ ustr itm ++ ".csv".toList
  openApp io file
  if io.canOpen file then
    Prog.forRange 0 vals.length () fun i _ => do
      let x ← Prog.lift (rd vals i)
      Prog.emit (.append file (io.fmt x ++ ['\n']))
  else pure ()

/-- The rows of a table of pairs and logarithms of powers: io.cpp:64-71 and 106-113. -/
def rows (io : IOEnv α) (file : List Char) (coords : List (P2 α)) (power : List α) : Prog α Unit :=
  Prog.forRange 0 power.length () fun i _ => do
    let c ← Prog.lift (rd coords i)
    let p ← Prog.lift (rd power i)
    Prog.emit (.append file (io.fmt c.x0 ++ ',' :: (io.fmt c.x1 ++ ',' :: (io.fmt (logValue p) ++ ['\n']))))

/-- io.cpp:88-127 `write_R_psl`.  The file is opened before the spectrum is computed. -/
def write_R_psl (io : IOEnv α) (g : Grid α) (J : Junk (Cx α)) (name : List Char) (save_coords : Bool) (itm : Int) (vals : List α) :
    Prog α Unit := do
  let file := name ++ "_RPsl_".toList ++ Text.toStr itm ++ ".csv".toList
  openApp io file
  let power ← Prog.lift (g.set_angular_power_spectrum J vals (List.replicate (umul g.d.nx g.d.nl) 0))
  if io.canOpen file then do
    putHeader file save_coords ["R", "l", "log(value)"]
    rows io file g.R_l power
  else pure ()

/-- io.cpp:46-85 `write_n_psl` (USE_CHEB builds). -/
def write_n_psl (io : IOEnv α) (g : Grid α) (c : Cheb α) (J : Junk (Cx α)) (name : List Char) (save_coords : Bool) (itm : Int)
    (vals : List α) : Prog α Unit := do
  let file := name ++ "_NPsl_".toList ++ Text.toStr itm ++ ".csv".toList
  openApp io file
  let power ← Prog.lift (g.set_n_l_coef c J vals (List.replicate (umul g.d.nx g.d.nl) 0))
  if io.canOpen file then do
    putHeader file save_coords ["n", "l", "log(value)"]
    rows io file g.n_l power
  else pure ()

/-- io.cpp:129-136 `magnitude` of the three coordinates of a point. -/
def magnitude (v : P3 α) : α := rt (0 + pown v.x0 2 + pown v.x1 2 + pown v.x2 2)

/-- io.cpp:138-182 `write_x_y_z`. -/
def write_x_y_z (io : IOEnv α) (g : Grid α) (name : List Char) (save_coords : Bool) (itm : Int) (vmin vmax rmin rmax : α)
    (vals : List α) : Prog α Unit := do
  let file := name ++ "_XYZ_".toList ++ Text.toStr itm ++ ".csv".toList
  openApp io file
  if io.canOpen file then do
    putHeader file save_coords ["x", "y", "z", "value"]
    Prog.forRange 0 vals.length () fun i _ => do
      let x ← Prog.lift (rd vals i)
      if lt vmin (fabs x) && lt (fabs x) vmax then do
        let c ← Prog.lift (rd g.x_y_z i)
        if lt rmin (magnitude c) && lt (magnitude c) rmax then
          Prog.emit (.append file (io.fmt c.x0 ++ ',' :: (io.fmt c.x1 ++ ',' :: (io.fmt c.x2 ++ ',' :: (io.fmt x ++ ['\n'])))))
        else pure ()
      else pure ()
  else pure ()

end Csv
end SFK
