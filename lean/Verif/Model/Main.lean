import Verif.Model.IO
import Verif.Model.ScalarEom
import Verif.Model.InitialData
/-
Model of /repo/Source/main.cpp.
-/
namespace SFK
open Scalar

namespace Main
variable {α : Type} [Scalar α]

/-- Conversion of a `size_t` to `int` (main.cpp:63,64,89,90: `save_indx` passed as `const int itm`). -/
def toInt (n : Nat) : Int := ((n : Int) + 2 ^ 31) % 2 ^ 32 - 2 ^ 31

/-- `a % b` on `size_t`: division by zero is undefined. -/
def umod (a b : Nat) : Exec Nat := if b = 0 then .error .ub else .ok (a % b)

/-- The mutable local variables of main. -/
structure Vars (α : Type) where
  save_indx : Nat
  e : Eom α
  f : Field α
  p : Field α
  rho : List α

/-- main.cpp:82-90 (and 58-64): compute the energy density and write the two spectrum files of a save. -/
def save (io : IOEnv α) (g : Grid α) (J : Junk (Cx α)) (dir : List Char) (s : Vars α) : Prog α (Vars α) := do
  let (e, rho) ← Prog.lift (s.e.set_rho g (J.sub 0) s.f.np1 s.p.np1 s.rho)
  Csv.write_R_psl io g (J.sub 1) (dir ++ '/' :: s.f.name.toList) true (toInt s.save_indx) s.f.np1
  Csv.write_R_psl io g (J.sub 2) (dir ++ "/rho".toList) true (toInt s.save_indx) rho
  pure { s with e := e, rho := rho }

/-- main.cpp:68-95, one iteration of the evolution loop. -/
def iter (io : IOEnv α) (P : ParamRec α) (g : Grid α) (J : Junk (Cx α)) (dir : List Char) (itm : Nat) (s : Vars α) :
    Prog α (Vars α) := do
  let (e, f, p) ← Prog.lift (s.e.time_step g (J.sub 0) s.f s.p)
  let s := { s with e := e, f := f, p := p }
  let r ← Prog.lift (umod itm P.t_step_save)
  let s ← if r = 0 then do
      let s := { s with save_indx := uadd s.save_indx 1 }
      let res ← Prog.lift (g.norm_indep_res P.dt s.f.n s.f.np1 s.p.n)
      let tv ← Prog.lift (g.total_variation s.f.np1)
      Prog.emit (.diag (P.dt * dbl itm) res tv)
      save io g (J.sub 1) dir s
    else pure s
  let f ← Prog.lift s.f.shift
  let p ← Prog.lift s.p.shift
  pure { s with f := f, p := p }

/-- main.cpp:19-97 from the parameter record on. -/
def run (E : Env α) (io : IOEnv α) (J : Junk (Cx α)) (dir : List Char) (P : ParamRec α) : Prog α Unit := do
  let N := umul (umul P.nx P.nlat) P.nphi
  let f : Field α := Field.mk' "f" N (lit 0)
  let p : Field α := Field.mk' "p" N (lit 0)
  let g ← Prog.lift (Grid.ctor E P.cl P.Rmin P.Rmax P.nx P.nl P.nm P.nlat P.nphi)
  let e ← Prog.lift (Eom.mk' g P)
  let (fn, pn) ← Prog.lift (ID.compact_pulse P g (J.sub 0) f.n p.n)
  let (fnp1, pnp1) ← Prog.lift (ID.compact_pulse P g (J.sub 1) f.np1 p.np1)
  let f := { f with n := fn, np1 := fnp1 }
  let p := { p with n := pn, np1 := pnp1 }
  let res ← Prog.lift (g.norm_indep_res P.dt f.n f.np1 p.n)
  let tv ← Prog.lift (g.total_variation f.n)
  Prog.emit (.diag (lit 0) res tv)
  let s ← save io g (J.sub 2) dir { save_indx := 0, e := e, f := f, p := p, rho := List.replicate N (lit 0) }
  let _ ← Prog.forRange 1 P.nt s fun itm s => iter io P g ((J.sub 3).sub itm) dir itm s
  pure ()

/-- main.cpp:14-98 `main`.  `args` are the command line arguments after the program name; `files` is the content of the files before
the run; `argv[i]` beyond the arguments given is a null pointer (or worse), from which no string can be made. -/
def main (E : Env α) (io : IOEnv α) (stod : List Char → Option α) (J : Junk (Cx α)) (files : List Char → Option (List Char))
    (args : List (List Char)) : Prog α Unit := do
  Prog.lift (cassert E.ndebug (args.length + 1 == 3))
  let param_file ← Prog.lift (rd args 0)
  let output_dir ← Prog.lift (rd args 1)
  let P ← Prog.lift (Params.ctor stod E.ndebug (files param_file))
  run E io J output_dir P

end Main
end SFK
