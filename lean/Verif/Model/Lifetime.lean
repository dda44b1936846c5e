import Verif.Model.Base
/-
Model of the constructors and destructors of /repo/Source/cheb.cpp, sphere.cpp, grid.cpp as far as the library FFTW is concerned: which plans
exist, who executes and destroys them.

FFTW keeps global state.  Its manual (section "Using Plans") says of `fftw_cleanup`: all existing plans become undefined, and one should not attempt
to execute them nor to destroy them.
-/
namespace SFK
namespace Life

/-- FFTW: plan handles are numbered in order of creation; `valid` are the plans that may be executed and destroyed. -/
structure Fftw where
  next : Nat
  valid : List Nat

namespace Fftw

/-- before any use of the library -/
def init : Fftw := ⟨0, []⟩

/-- `fftw_plan_...`: a new plan -/
def plan (s : Fftw) : Nat × Fftw := (s.next, ⟨s.next + 1, s.next :: s.valid⟩)

/-- `fftw_execute_...(p, ...)` -/
def execute (s : Fftw) (p : Nat) : Exec Unit := if p ∈ s.valid then .ok () else .error .ub

/-- `fftw_destroy_plan(p)` -/
def destroy (s : Fftw) (p : Nat) : Exec Fftw := if p ∈ s.valid then .ok { s with valid := s.valid.filter (· != p) } else .error .ub

/-- `fftw_cleanup()` -/
def cleanup (s : Fftw) : Fftw := { s with valid := [] }

/-- `k` plans one after the other -/
def planMany : Nat → Fftw → List Nat × Fftw
  | 0, s => ([], s)
  | k + 1, s =>
    let (p, s) := s.plan
    let (ps, s) := planMany k s
    (p :: ps, s)

/-- execute all of these -/
def executeAll (s : Fftw) : List Nat → Exec Unit
  | [] => .ok ()
  | p :: ps => do
    s.execute p
    s.executeAll ps

/-- destroy all of these -/
def destroyAll : List Nat → Fftw → Exec Fftw
  | [], s => .ok s
  | p :: ps, s => do
    let s ← s.destroy p
    destroyAll ps s

end Fftw

/-- What the build and the SHTns library fix: `USE_CHEB` (grid.hpp:238-242), and the number of FFTW plans a SHTns configuration holds
(it has plans for the transforms in longitude; it makes them in `shtns_set_grid` and destroys them in `shtns_destroy`). -/
structure Cfg where
  useCheb : Bool
  shPlans : Nat

/-- The classes whose objects hold plans. -/
inductive Kind where
  | cheb
  | sphere
  | grid
deriving DecidableEq

/-- The plans held by an object: `sph` by the SHTns configuration of a Sphere (sphere.hpp:90), `dct` by a Cheb (cheb.hpp:41). -/
structure Obj where
  sph : List Nat
  dct : Option Nat

/-- cheb.cpp:34, in the constructor: `_plan_dct = fftw_plan_r2r_1d(...)` (simplification: it succeeds). -/
def chebCtor (s : Fftw) : Nat × Fftw := s.plan

/-- cheb.cpp:41-47, the destructor: destroys the plan and then calls `fftw_cleanup`. -/
def chebDtor (p : Nat) (s : Fftw) : Exec Fftw := do
  let s ← s.destroy p
  .ok s.cleanup

/-- sphere.cpp:22-40: `shtns_create`, `shtns_set_grid`. -/
def sphereCtor (c : Cfg) (s : Fftw) : List Nat × Fftw := Fftw.planMany c.shPlans s

/-- sphere.cpp:62-65: `shtns_destroy`. -/
def sphereDtor (ps : List Nat) (s : Fftw) : Exec Fftw := Fftw.destroyAll ps s

/-- The constructors: cheb.cpp:7-38; sphere.cpp:7-60; grid.cpp:24-25 (first `_sphere`, then `_radial`, a `Cheb` only under `USE_CHEB`). -/
def ctor (c : Cfg) (s : Fftw) : Kind → Obj × Fftw
  | .cheb =>
    let (p, s) := chebCtor s
    (⟨[], some p⟩, s)
  | .sphere =>
    let (ps, s) := sphereCtor c s
    (⟨ps, none⟩, s)
  | .grid =>
    let (ps, s) := sphereCtor c s
    if c.useCheb then
      let (p, s) := chebCtor s
      (⟨ps, some p⟩, s)
    else (⟨ps, none⟩, s)

/-- The destructors: cheb.cpp:41-47; sphere.cpp:62-65; grid.cpp:94-96, whose members are destroyed in the reverse order of their declaration
(grid.hpp:237-242): `_radial` first, then `_sphere`. -/
def dtor (o : Obj) (s : Fftw) : Exec Fftw := do
  let s ← match o.dct with
    | some p => chebDtor p s
    | none => .ok s
  sphereDtor o.sph s

/-- A call of member functions that transform with all the plans of the object (`der`, `filter`, `partial_phi`, ...: cheb.cpp:58,83;
sphere.cpp `spat_to_SH`, `SH_to_spat`). -/
def useObj (o : Obj) (s : Fftw) : Exec Unit := do
  match o.dct with
    | some p => s.execute p
    | none => .ok ()
  s.executeAll o.sph

/-- What a program does with named objects. -/
inductive Op where
  | new (i : Nat) (k : Kind)
  | use (i : Nat)
  | del (i : Nat)
deriving DecidableEq

/-- The state of the process: the library and the objects that exist. -/
structure St where
  lib : Fftw
  obj : Nat → Option Obj

/-- at the start of the program -/
def St.init : St := ⟨Fftw.init, fun _ => none⟩

/-- One operation.  Using or destroying what does not exist is undefined whatever the library does; a name in use cannot be given again. -/
def step (c : Cfg) (s : St) : Op → Exec St
  | .new i k =>
    match s.obj i with
    | some _ => .error .ub
    | none =>
      let (o, lib) := ctor c s.lib k
      .ok ⟨lib, fun j => if j = i then some o else s.obj j⟩
  | .use i =>
    match s.obj i with
    | none => .error .ub
    | some o => do
      useObj o s.lib
      .ok s
  | .del i =>
    match s.obj i with
    | none => .error .ub
    | some o => do
      let lib ← dtor o s.lib
      .ok ⟨lib, fun j => if j = i then none else s.obj j⟩

/-- A history of operations. -/
def run (c : Cfg) (s : St) : List Op → Exec St
  | [] => .ok s
  | o :: os => do
    let s ← step c s o
    run c s os

end Life
end SFK
