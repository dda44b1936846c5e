import Verif.Model.Build
/-
Vocabulary of C88, C98 and C116.
-/
namespace SFK
namespace Build

/-- Clocks run forward: nothing is newer than now. -/
structure Tree.Sane (t : Tree) : Prop where
  cpp : ∀ s, t.cpp s ≤ t.now
  hpp : ∀ h, t.hpp h ≤ t.now
  obj : ∀ s o, t.obj s = some o → o.1 ≤ t.now

/-- No objects lie around. -/
def Tree.Clean (t : Tree) : Prop := ∀ s, t.obj s = none

/-- The variable `name` is set to `true` on the command line: its last definition there says so. -/
def SetTrue (vars : List (Name × Name)) (name : String) : Prop :=
  ∃ l r, vars = l ++ (name.toList, "true".toList) :: r ∧ ∀ v ∈ r, v.1 ≠ name.toList

/-- The switches a command with these variables asks for (INSTALL.md, comments of Source/Makefile): no assertions unless `debug`, Chebyshev points with
`use_cheb`, longitudes contiguous with `use_contiguous_longitudes` or `use_hyperboloidal`, profiling with `profile`. -/
structure AsksFor (vars : List (Name × Name)) (fl : Flags) : Prop where
  ndebug : fl.ndebug = true ↔ ¬ SetTrue vars "debug"
  useCheb : fl.useCheb = true ↔ SetTrue vars "use_cheb"
  contig : fl.contig = true ↔ SetTrue vars "use_contiguous_longitudes" ∨ SetTrue vars "use_hyperboloidal"
  profile : fl.profile = true ↔ SetTrue vars "profile"

/-- The binary a command `make vars` or `make vars goal` builds: the one named, or the default one. -/
def Builds (vars : List (Name × Name)) (goal : Option Name) (b : Name) : Prop :=
  goal = some b ∧ ".run".toList <:+ b ∨
  goal = none ∧ (SetTrue vars "use_cheb" ∧ b = "default_cheb.run".toList ∨ ¬ SetTrue vars "use_cheb" ∧ b = "default_fd.run".toList)

/-- The binary `goal` exists, and its part made from `s.cpp` was compiled with the switches `fl`. -/
def Tree.Has (t : Tree) (goal s : Name) (fl : Flags) : Prop := ∃ b τ, t.bin goal = some b ∧ b s = some (τ, fl)

/-- The sources, `x.cpp`. -/
def sources : List Name :=
  ["params".toList, "cheb".toList, "finite_diff".toList, "sphere".toList, "grid".toList, "io".toList, "field".toList,
    "initial_data".toList, "scalar_eom".toList, "main".toList]

/-- The sources the test program is made from (besides those in Test). -/
def tested : List Name := ["finite_diff".toList, "cheb".toList, "sphere".toList, "grid".toList]

/-- The project's header files that these sources include, directly or not. -/
def includes : List Name :=
  ["params".toList, "cheb".toList, "finite_diff".toList, "sphere".toList, "grid".toList, "io".toList, "field".toList,
    "initial_data".toList, "scalar_eom".toList]

/-- The binary `goal` exists, and its part made from `s.cpp` was compiled after the last change of `s.cpp` and of all included headers. -/
def Tree.Current (t : Tree) (goal s : Name) : Prop :=
  ∃ b τ fl, t.bin goal = some b ∧ b s = some (τ, fl) ∧ t.cpp s ≤ τ ∧ ∀ h ∈ includes, t.hpp h ≤ τ

/-- The binary `goal` exists, and its part made from `s.cpp` was compiled before the last change of the header `h.hpp`. -/
def Tree.Outdated (t : Tree) (goal s h : Name) : Prop :=
  ∃ b τ fl, t.bin goal = some b ∧ b s = some (τ, fl) ∧ τ < t.hpp h

/-- The command changes `s.cpp` or an included header, or removes the objects. -/
def Touches (s : Name) : Cmd → Prop
  | .editCpp q => q = s
  | .editHpp h => h ∈ includes
  | .cleanSource => True
  | .clean => True
  | .cleanBin => False
  | .cleanOutput => False
  | .run _ => False
  | .make _ _ => False
  | .test => False

/-- The command builds something. -/
def Makes (c : Cmd) : Prop := c = .test ∨ ∃ vars goal, c = .make vars goal

/-- The command is an edit of `s.cpp` or of an included header. -/
def Edits (s : Name) (c : Cmd) : Prop := c = .editCpp s ∨ ∃ h ∈ includes, c = .editHpp h

/-- The command removes the objects. -/
def RemovesObjects (c : Cmd) : Prop := c = .cleanSource ∨ c = .clean

/-- The command is one that is meant to remove results. -/
def RemovesResults (c : Cmd) : Prop := c = .cleanOutput ∨ c = .clean

/-- An ordinary file name: it is not hidden and names no other directory. -/
def Plain (q : Name) : Prop := (∀ r, q ≠ '.' :: r) ∧ '/' ∉ q

/-- The switches config.py's two commands ask for. -/
def configFlags (debug profile : Name) (cheb : Bool) : Flags := ⟨debug != "true".toList, cheb, true, profile == "true".toList⟩

/-- The make 4.3: it keeps the objects listed twice. -/
def make43 : Make := ⟨fun s => s == "finite_diff".toList, fun s => s == "cheb".toList || s == "sphere".toList⟩

/-- The switches a solver is to be built with when no variable is given, and those of the test program. -/
def plainFlags : Flags := ⟨true, false, false, false⟩

end Build
end SFK
