import Verif.Model.Base
/-
Model of the build: /repo/Makefile, /repo/Source/Makefile, /repo/Test/Makefile, /repo/Bin/Makefile, /repo/Output/Makefile, /repo/config.py and `Sim.then_recompile`, on the relevant
part of GNU make's semantics.

Simplifications, for the whole file: every file compiles and links; there is no file named like a `.run` goal in /repo or /repo/Source (so linking
is always done); modification times are a counter; one process at a time; the environment does not define the makefiles' variables; the optimisation
level (-O3 in Source, -O2 in Test) is not recorded; the objects made from the files in Test are not described (nothing else uses them); no directory is
write-protected.
-/
namespace SFK
namespace Build

/-- A name: of a file without its suffix, of a goal, of a variable. -/
abbrev Name := List Char

/-- The preprocessor and compiler switches the makefile chooses (Source/Makefile:8-37): `-DNDEBUG` (absent for a debugging build), `-DUSE_CHEB`,
`-DSHTNS_CONTIGUOUS_LONGITUDES`, `-pg`. -/
structure Flags where
  ndebug : Bool
  useCheb : Bool
  contig : Bool
  profile : Bool
deriving DecidableEq

/-- `ifeq ($(name),true)`: variables given on the command line, a later definition of a name counts. -/
def isTrue (vars : List (Name × Name)) (name : String) : Bool :=
  match vars.reverse.find? (fun v => v.1 == name.toList) with
  | some v => v.2 == "true".toList
  | none => false

/-- Source/Makefile:10-37: the switches for given variables.  (Lines 35-37: `use_hyperboloidal` sets the layout switch too.) -/
def flagsOf (vars : List (Name × Name)) : Flags where
  ndebug := !isTrue vars "debug"
  useCheb := isTrue vars "use_cheb"
  contig := isTrue vars "use_contiguous_longitudes" || isTrue vars "use_hyperboloidal"
  profile := isTrue vars "profile"

/-- Source/Makefile:24-29, 40: the goal of a plain `make`. -/
def defaultGoal (vars : List (Name × Name)) : Name :=
  if isTrue vars "use_cheb" then "default_cheb.run".toList else "default_fd.run".toList

/-- Source/Makefile:42-52 `OBJ` (finite_diff.o is listed twice). -/
def objects : List Name :=
  ["params".toList, "cheb".toList, "finite_diff".toList, "finite_diff".toList, "sphere".toList, "grid".toList, "io".toList, "field".toList,
    "initial_data".toList, "scalar_eom".toList, "main".toList]

/-- Source/Makefile:54-63 `DEPS`. -/
def headers : List Name :=
  ["params".toList, "cheb".toList, "finite_diff".toList, "finite_diff".toList, "sphere".toList, "grid".toList, "io".toList, "field".toList,
    "initial_data".toList, "scalar_eom".toList]

/-- The directories: times of the sources `name.cpp` and `name.hpp`, the objects `name.o` in Source (time, and the switches they were compiled
with), the binaries in Bin (for every object linked, when and with which switches it was compiled), the directories in Output (those runs write
their tables to, sim_class.py:11-31). -/
structure Tree where
  now : Nat
  cpp : Name → Nat
  hpp : Name → Nat
  obj : Name → Option (Nat × Flags)
  bin : Name → Option (Name → Option (Nat × Flags))
  out : Name → Bool

/-- The object has to be remade: it is missing or older than its source or than one of the headers `deps`. -/
def stale (deps : List Name) (t : Tree) (s : Name) : Bool :=
  match t.obj s with
  | none => true
  | some o => decide (o.1 < t.cpp s) || deps.any fun h => decide (o.1 < t.hpp h)

/-- `%.o: %.cpp $(DEPS)` (Source/Makefile:68-69); `%.o: %.cpp` without headers (Test/Makefile:36-37; the rule of lines 39-40 never applies, as there
are no such sources in Test).  The switches are no prerequisite. -/
def compile (deps : List Name) (fl : Flags) (t : Tree) (s : Name) : Tree :=
  if stale deps t s then { t with now := t.now + 1, obj := fun q => if q = s then some (t.now + 1, fl) else t.obj q } else t

/-- `%.run: $(OBJ)` (Source/Makefile:65-66, Test/Makefile:33-34): the objects `objs` as they are there. -/
def link (objs : List Name) (goal : Name) (t : Tree) : Tree :=
  { t with now := t.now + 1, bin := fun q => if q = goal then some (fun s => if s ∈ objs then t.obj s else none) else t.bin q }

/-- make's removal of intermediate files: objects that were not there before are removed at the end, unless `kept`. -/
def tidy (kept : Name → Bool) (before t : Tree) : Tree :=
  { t with obj := fun q => if (before.obj q).isNone && !kept q then none else t.obj q }

/-- Which objects the make in use does not consider intermediate, in Source and in Test.  This depends on its version: 4.3 keeps only the ones
listed twice (finite_diff.o in Source, cheb.o and sphere.o in Test; observed), 4.4 is documented to treat the names in a pattern rule's
prerequisites as mentioned, so it keeps all. -/
structure Make where
  src : Name → Bool
  test : Name → Bool

/-- `make vars goal` in Source for a goal `x.run`. -/
def makeRun (kept : Name → Bool) (vars : List (Name × Name)) (goal : Name) (t : Tree) : Tree :=
  tidy kept t (link objects goal (objects.foldl (compile headers (flagsOf vars)) t))

/-- Test/Makefile:14-17: the switches of the test program (debugging assertions on). -/
def testFlags : Flags := ⟨false, true, true, false⟩

/-- Test/Makefile:20-24 `OBJ`: the objects in ../Source (cheb.o and sphere.o are listed twice). -/
def testObjects : List Name :=
  ["finite_diff".toList, "cheb".toList, "sphere".toList, "cheb".toList, "sphere".toList, "grid".toList]

/-- `make` in Test (Test/Makefile:27, 33-40): the objects are made in ../Source, the program is ../Bin/test.run. -/
def makeTest (kept : Name → Bool) (t : Tree) : Tree :=
  tidy kept t (link testObjects "test.run".toList (testObjects.foldl (compile [] testFlags) t))

/-- What a user can do: edit a source or a header, `make vars` or `make vars goal` in the main directory (Makefile:1-5 hands both on to Source,
the variables are handed on by make), `make test` (Makefile:7-8; variables have no effect there), `make clean_Source` (Makefile:16-17,
Source/Makefile:73-74), `make clean_Bin` (Makefile:10-11, Bin/Makefile:1-2), `make clean_Output` (Makefile:13-14, Output/Makefile:3-4), `make clean`
(Makefile:19-22), or run the solver with its results in the directory `d` of Output (simplification: of the run only the directory is recorded). -/
inductive Cmd where
  | editCpp (s : Name)
  | editHpp (h : Name)
  | make (vars : List (Name × Name)) (goal : Option Name)
  | test
  | cleanSource
  | cleanBin
  | cleanOutput
  | clean
  | run (d : Name)

/-- A goal of the main Makefile that is no special target: it matches `%.run` (Makefile:4-5) or make stops with an error
(simplification: the goal `.run`, for which nothing would be left for the `%`, is not excluded). -/
def isRun (goal : Name) : Bool := ".run".toList.isSuffixOf goal

/-- A name the shell's `*` can stand for: a file of this directory that is not hidden. -/
def visible (q : Name) : Bool := q.head? != some '.' && !q.contains '/'

/-- Source/Makefile:73-74: `rm -f *.o`. -/
def cleanObj (t : Tree) : Tree := { t with obj := fun _ => none }

/-- Bin/Makefile:1-2: `rm -f *.run`. -/
def rmBin (t : Tree) : Tree := { t with bin := fun q => if visible q && isRun q then none else t.bin q }

/-- Output/Makefile:3-4: `rm -f -r -- */`. -/
def rmOutput (t : Tree) : Tree := { t with out := fun d => if visible d then false else t.out d }

/-- The effect of a command. -/
def step (mk : Make) (t : Tree) : Cmd → Tree
  | .editCpp s => { t with now := t.now + 1, cpp := fun q => if q = s then t.now + 1 else t.cpp q }
  | .editHpp h => { t with now := t.now + 1, hpp := fun q => if q = h then t.now + 1 else t.hpp q }
  | .make vars none => makeRun mk.src vars (defaultGoal vars) t
  | .make vars (some goal) => if isRun goal then makeRun mk.src vars goal t else t
  | .test => makeTest mk.test t
  | .cleanSource => cleanObj t
  | .cleanBin => rmBin t
  | .cleanOutput => rmOutput t
  | .clean => cleanObj (rmOutput (rmBin t))
  | .run d => { t with out := fun q => if q = d then true else t.out q }

/-- A sequence of commands. -/
def steps (mk : Make) (cs : List Cmd) (t : Tree) : Tree := cs.foldl (step mk) t

/-- config.py:20-33, for given `--debug` and `--profile` arguments. -/
def config (debug profile : Name) : List Cmd :=
  [.make [("debug".toList, debug), ("profile".toList, profile), ("use_cheb".toList, "true".toList),
      ("use_contiguous_longitudes".toList, "true".toList)] none,
   .make [("debug".toList, debug), ("profile".toList, profile), ("use_contiguous_longitudes".toList, "true".toList)] none]

/-- sim_class.py:147-149 `then_recompile`: the two commands. -/
def recompile (bin : Name) : List Cmd := [.make [] (some ("clean_obj".toList ++ bin)), .make [] (some bin)]

end Build
end SFK
