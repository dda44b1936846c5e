import Verif.Model.Launcher
import Verif.Model.Main
/-
Model of /repo/sim_class.py as a program: the attributes of the `Sim` object, the file system, and `launch_run`.

Simplifications, for the whole file: permissions (other than the executable bit), symbolic links, `.`/`..`/doubled slashes inside a path are not
modelled (two texts are the same path only if they are equal, except that a relative path is taken from the working directory and a leading `./` is
dropped); complex numbers have no value, only a printed form; a python exception is `Err.exc`.
-/
namespace SFK
open Scalar
namespace Launcher
variable {α : Type} [Scalar α]

/-- A python value an attribute may have: `None`, a bool, an int, a float, a complex number, a string, a list (its elements' printed
forms). -/
inductive PyObj (α : Type) where
  | none
  | bool (b : Bool)
  | int (n : Int)
  | flt (x : α)
  | cplx
  | str (s : List Char)
  | list (texts : List (List Char))

/-- The attributes of the object, `vars(self)`, in the order of their creation. -/
abbrev Obj (α : Type) := List (List Char × PyObj α)

/-- `self.name`, if there is such an attribute. -/
def Obj.find (name : List Char) : Obj α → Option (PyObj α)
  | [] => Option.none
  | (k, v) :: r => if k = name then some v else find name r

/-- `self.name`: AttributeError if there is none. -/
def Obj.get (o : Obj α) (name : String) : Exec (PyObj α) :=
  match o.find name.toList with
  | some v => .ok v
  | Option.none => .error .exc

/-- Assignment to an attribute: an existing one keeps its place, a new one comes last (python dictionaries keep insertion order). -/
def Obj.put (name : List Char) (v : PyObj α) : Obj α → Obj α
  | [] => [(name, v)]
  | (k, u) :: r => if k = name then (k, v) :: r else (k, u) :: put name v r

/-- `self.name = v` -/
def Obj.set (o : Obj α) (name : String) (v : PyObj α) : Obj α := Obj.put name.toList v o

/-- The python interpreter's surroundings: printing of floats and of complex numbers, test for zero (division by it raises), `int(x)` of a
float (raises on nan and infinities), the directory the script was started in, and words 1, 2, 3 of `time.asctime()`. -/
structure PyEnv (α : Type) where
  fmt : α → List Char
  cplxText : List Char
  isZero : α → Bool
  toInt : α → Exec Int
  home : List Char
  month : List Char
  day : List Char
  clock : List Char

/-- `str(v)`; a list's own printed form is not needed by any caller modelled here. -/
def PyEnv.str (V : PyEnv α) : PyObj α → List Char
  | .none => "None".toList
  | .bool b => if b then "True".toList else "False".toList
  | .int n => Text.toStr n
  | .flt x => V.fmt x
  | .cplx => V.cplxText
  | .str s => s
  | .list ts => ts.flatMap fun t => ' ' :: t

/-- What `write_sim_params` prints for a value (sim_class.py:79-85): a list is treated apart. -/
def PyEnv.val (V : PyEnv α) : PyObj α → PyVal
  | .list ts => .list ts
  | v => .scalar (V.str v)

/-- The value as a number in float arithmetic.  Simplification: arithmetic between two python ints is done in floating point; bools are not
accepted as numbers. -/
def PyObj.num : PyObj α → Exec α
  | .int n => .ok (lit n)
  | .flt x => .ok x
  | _ => .error .exc

/-- The value as a python int (sizes). Simplification: a float is not accepted. -/
def PyObj.toInt : PyObj α → Exec Int
  | .int n => .ok n
  | _ => .error .exc

/-- The value as a string. -/
def PyObj.toStr : PyObj α → Exec (List Char)
  | .str s => .ok s
  | _ => .error .exc

/-- `v == True`.  Simplification: a float is taken to be different from `True`. -/
def PyObj.isTrue : PyObj α → Bool
  | .bool b => b
  | .int n => n == 1
  | _ => false

/-- The truth value of `v` in `if (v)`.  Simplification: every float and complex number counts as true. -/
def PyObj.truthy : PyObj α → Bool
  | .none => false
  | .bool b => b
  | .int n => n != 0
  | .str s => !s.isEmpty
  | .list ts => !ts.isEmpty
  | _ => true

/-- float division, which raises ZeroDivisionError -/
def PyEnv.div (V : PyEnv α) (x y : α) : Exec α := if V.isZero y then .error .exc else .ok (x / y)

/-- an attribute as a number -/
def Obj.num (o : Obj α) (name : String) : Exec α := do
  let v ← o.get name
  v.num

/-- an attribute as an int -/
def Obj.int (o : Obj α) (name : String) : Exec Int := do
  let v ← o.get name
  v.toInt

/-- sim_class.py:33-34 `compactification` of a real radius. -/
def compact (V : PyEnv α) (o : Obj α) (r : α) : Exec α := do
  let cl ← o.num "compactification_length"
  let q ← V.div r cl
  V.div r (1 + q)

/-- sim_class.py:48: the value of `Rmin`. -/
def rminOf (V : PyEnv α) (o : Obj α) (real : Bool) (hor : α) : Exec (PyObj α) :=
  if real then do
    let R ← compact V o hor
    .ok (.flt R)
  else do
    let _ ← o.num "compactification_length"
    .ok .cplx

/-- sim_class.py:51-63: the value of `dt`. `6.*pow(n,-2)` raises for `n=0`. -/
def dtOf (V : PyEnv α) (o : Obj α) : Exec α := do
  let u ← o.get "use_cheb"
  if u.isTrue then do
    let nx ← o.int "nx"
    let nlat ← o.int "nlat"
    let nphi ← o.int "nphi"
    let n := max nx (max nlat nphi)
    if n = 0 then .error .exc else .ok (6 * (1 / pown (lit n) 2))
  else do
    let nlat ← o.int "nlat"
    let nphi ← o.int "nphi"
    let n := max nlat nphi
    if n = 0 then .error .exc else do
      let a : α := 6 * (1 / pown (lit n) 2)
      let cfl ← o.num "cfl"
      let nx ← o.int "nx"
      let b ← V.div cfl (lit nx - 1)
      .ok (if lt b a then b else a)

/-- sim_class.py:68-72: `t_step_save`.  `num_saved_times` is a python int; `int(nt/float(num))` is the quotient rounded towards zero
(exact for `|nt|<2^53`). -/
def saveEvery (nt num : Int) : Exec Int :=
  if num = 0 then .error .exc else .ok (if Int.tdiv nt num = 0 then 1 else Int.tdiv nt num)

/-- sim_class.py:36-72 `set_derived_params`.  For `|spin|>mass` the square root of the negative number is a complex number, and so are
`horizon`, `rl`, `ru` and `Rmin`. -/
def set_derived_params (V : PyEnv α) (o : Obj α) : Exec (Obj α) := do
  let m ← o.num "black_hole_mass"
  let a ← o.num "black_hole_spin"
  let disc := (m - a) * (m + a)
  let real := !lt disc 0
  let hor := m + rt disc
  let o := o.set "horizon" (if real then .flt hor else .cplx)
  let rl0 ← o.num "rl_0"
  let o := o.set "rl" (if real then .flt (hor * rl0) else .cplx)
  let ru0 ← o.num "ru_0"
  let o := o.set "ru" (if real then .flt (hor * ru0) else .cplx)
  let R ← rminOf V o real hor
  let o := o.set "Rmin" R
  let cl ← o.get "compactification_length"
  let o := o.set "Rmax" cl
  let dt ← dtOf V o
  let o := o.set "dt" (.flt dt)
  let T ← o.num "evolve_time"
  let q ← V.div (T * m) dt
  let nt ← V.toInt q
  let o := o.set "nt" (.int nt)
  let num ← o.int "num_saved_times"
  let ts ← saveEvery nt num
  .ok (o.set "t_step_save" (.int ts))

/-- `v == 'home'` -/
def PyObj.isHome : PyObj α → Bool
  | .str s => s == "home".toList
  | _ => false

/-- sim_class.py:12-25: the value of `output_stem`. -/
def stemName (V : PyEnv α) (o : Obj α) : Exec (List Char) := do
  let d ← o.get "output_dir"
  match d with
  | .none => do
    let m ← o.get "black_hole_mass"
    let s ← o.get "black_hole_spin"
    let nx ← o.get "nx"
    let nl ← o.get "nl"
    let nm ← o.get "nm"
    .ok ('/' :: (V.month ++ '_' :: V.day ++ '_' :: V.clock.map (fun c => if c = ':' then '_' else c)
      ++ "_m".toList ++ V.str m ++ "_s".toList ++ V.str s ++ "_nx".toList ++ V.str nx ++ "_nl".toList ++ V.str nl
      ++ "_nm".toList ++ V.str nm))
  | d => d.toStr

/-- sim_class.py:26-29: what the stem is appended to. -/
def rootName (V : PyEnv α) (o : Obj α) : Exec (List Char) := do
  let c ← o.get "computer"
  if c.isHome then .ok (V.home ++ "/Output".toList) else do
    let s ← o.get "out_stem"
    s.toStr

/-- sim_class.py:11-29, `make_output_dir` without the last line: the object with `output_stem` and `output_dir` set, and the latter. -/
def choose_output_dir (V : PyEnv α) (o : Obj α) : Exec (Obj α × List Char) := do
  let stem ← stemName V o
  let o := o.set "output_stem" (.str stem)
  let root ← rootName V o
  .ok (o.set "output_dir" (.str (root ++ stem)), root ++ stem)

/-- The file system: contents of files, which directories there are, which files are executable. -/
structure World where
  files : List Char → Option (List Char)
  dirs : List Char → Bool
  exec : List Char → Bool

/-- writing a whole file; a new file is not executable -/
def World.put (w : World) (p t : List Char) : World :=
  { w with files := fun q => if q = p then some t else w.files q
           exec := fun q => w.exec q && !(q == p && (w.files p).isNone) }

/-- `chmod 755 p` -/
def World.chmod (w : World) (p : List Char) : World := { w with exec := fun q => q == p || w.exec q }

/-- `q` is the directory `dir` or one of its ancestors -/
def ancestorOrSelf (q dir : List Char) : Bool := q == dir || (q ++ ['/']).isPrefixOf dir

/-- `os.makedirs(dir)` (sim_class.py:30): raises if there is something of this name, or a file in the place of a parent; creates the
directory and missing parents. -/
def World.makedirs (w : World) (dir : List Char) : Exec World :=
  if w.dirs dir || (w.files dir).isSome || (List.range dir.length).any (fun k => (dir[k]? == some '/') && (w.files (dir.take k)).isSome)
  then .error .exc
  else .ok { w with dirs := fun q => ancestorOrSelf q dir || w.dirs q }

/-- A path used by a process whose working directory is `cwd`. -/
def resolve (cwd p : List Char) : List Char :=
  match p with
  | '/' :: r => '/' :: r
  | '.' :: '/' :: r => cwd ++ '/' :: r
  | p => cwd ++ '/' :: p

/-- What an event of the solver does to the files when its working directory is `cwd`. -/
def World.event (cwd : List Char) (w : World) : Event α → World
  | .create p => w.put (resolve cwd p) ((w.files (resolve cwd p)).getD [])
  | .append p t => w.put (resolve cwd p) ((w.files (resolve cwd p)).getD [] ++ t)
  | .diag _ _ _ => w

/-- The machine: which build of the solver (if any) the content of a file is, the solver's number formatting and reading, its
uninitialised memory, the text its standard output amounts to, and the effect of a `make` command. -/
structure Machine (α : Type) where
  build : List Char → Option (Env α)
  io : IOEnv α
  stod : List Char → Option α
  junk : Junk (Cx α)
  stdout : List (Event α) → List Char
  make : List Char → World → World

/-- What a launch leaves behind: the files, the object (or a python exception), what the solver did and how it ended, if it was started, with the
environment variables it was started with, and the script handed to the queue, if one was. -/
structure Outcome (α : Type) where
  world : World
  obj : Exec (Obj α)
  solver : Option (Prog α Unit)
  env : List (List Char × List Char)
  job : Option (List Char)

/-- a launch ended by an exception -/
def failed (w : World) (e : Err) : Outcome α := ⟨w, .error e, none, [], none⟩

/-- sim_class.py:74-85 `write_sim_params`: the text of params.txt for this object. -/
def paramsText (V : PyEnv α) (o : Obj α) : List Char := write_sim_params (o.map fun a => (a.1, V.val a.2))

/-- sim_class.py:126-133: the command to run the solver. -/
def runStr (timed : Bool) (bin : List Char) : List Char :=
  (if timed then "time ".toList else []) ++ "./".toList ++ bin ++ " params.txt . 2>&1 | tee out.txt".toList

/-- sim_class.py:87-108 `write_slurm_script`: the text of the script. -/
def slurmText (V : PyEnv α) (o : Obj α) (bin run : List Char) : Exec (List Char) := do
  let wt ← o.get "walltime"
  let mem ← o.get "memory"
  let mail ← o.get "email"
  let nth ← o.get "num_threads"
  let nlv ← o.get "num_omp_levels"
  .ok ("#!/bin/sh\n".toList ++ "#SBATCH -J scalar\t\t# job name\n".toList
    ++ "#SBATCH -t ".toList ++ V.str wt ++ "\t\t# walltime (dd:hh:mm:ss)\n".toList
    ++ "#SBATCH -p physics\t\t# partition/queue name\n".toList
    ++ "#SBATCH --mem=".toList ++ V.str mem ++ "MB\n".toList
    ++ "#SBATCH --output=out.txt\t\t# file for STDOUT\n".toList
    ++ "#SBATCH --mail-user=".toList ++ V.str mail ++ "\t\t# Mail  id of the user\n".toList
    ++ "#SBATCH --nodes=1\n#SBATCH --ntasks-per-node=1\n".toList
    ++ "#SBATCH --cpus-per-task=".toList ++ V.str nth ++ "\n".toList
    ++ "\nexport OMP_MAX_ACTIVE_LEVELS=".toList ++ V.str nlv ++ "\n".toList
    ++ "\nexport OMP_NUM_THREADS=$SLURM_CPUS_PER_TASK\n".toList
    ++ "chmod 755 ".toList ++ bin ++ "\n".toList ++ "\n".toList ++ run ++ "\n".toList)

/-- A text cut at every `c`. -/
def cut (c : Char) : List Char → List (List Char)
  | [] => [[]]
  | a :: r =>
    if a = c then [] :: cut c r else
      match cut c r with
      | [] => [[a]]
      | w :: ws => (a :: w) :: ws

/-- The words of a command line.  Simplification: only spaces separate words, and no character is special to the shell except as in `pipeline`
and `shLine`. -/
def shWords (s : List Char) : List (List Char) := (cut ' ' s).filter (· ≠ [])

/-- A shell in the middle of its work: the files, the environment variables, and what the last program it ran did. -/
structure Sh (α : Type) where
  world : World
  env : List (List Char × List Char)
  solver : Option (Prog α Unit)

/-- The value of an environment variable: the last one set. -/
def envGet (env : List (List Char × List Char)) (name : List Char) : Option (List Char) :=
  match env with
  | [] => Option.none
  | (k, v) :: r => if k = name then some v else envGet r name

/-- `[time] prog args 2>&1 | tee out`: program, arguments, file. -/
def pipeline (ws : List (List Char)) : Option (List Char × List (List Char) × List Char) :=
  match (if ws.head? = some "time".toList then ws.tail else ws) with
  | [] => Option.none
  | prog :: rest =>
    match rest.dropWhile (· ≠ "2>&1".toList) with
    | [_, bar, tee, out] => if bar = "|".toList ∧ tee = "tee".toList then some (prog, rest.takeWhile (· ≠ "2>&1".toList), out) else Option.none
    | _ => Option.none

/-- Running `prog args 2>&1 | tee out` in `dir`.  Something that is not executable or no build of the solver does nothing; the status is not looked
at. -/
def runProg (X : Machine α) (dir prog : List Char) (args : List (List Char)) (out : List Char) (s : Sh α) : Sh α :=
  let w := s.world.put (resolve dir out) []
  if w.exec (resolve dir prog) then
    match (w.files (resolve dir prog)).bind X.build with
    | Option.none => { s with world := w, solver := Option.none }
    | some E =>
      let p := Main.main E X.io X.stod X.junk (fun q => w.files (resolve dir q)) args
      let w := p.events.foldl (World.event dir) w
      { s with world := w.put (resolve dir out) (X.stdout p.events), solver := some p }
  else { s with world := w, solver := Option.none }

/-- `export name=value`, `export name=$variable` -/
def doExport (env : List (List Char × List Char)) (word : List Char) : List (List Char × List Char) :=
  match word.dropWhile (· ≠ '=') with
  | [] => env
  | _ :: v =>
    match v with
    | '$' :: x => (word.takeWhile (· ≠ '='), (envGet env x).getD []) :: env
    | v => (word.takeWhile (· ≠ '='), v) :: env

/-- One line given to a shell with working directory `dir`, for the lines the launcher makes (sim_class.py:88-108, 126-139): comments, `export`,
`chmod 755 file`, and the command that runs the solver.  Simplification: other commands do nothing; `time` is there. -/
def shLine (X : Machine α) (dir : List Char) (s : Sh α) (line : List Char) : Sh α :=
  match shWords line with
  | [] => s
  | w :: ws =>
    if w.head? = some '#' then s
    else if w = "export".toList then { s with env := ws.foldl doExport s.env }
    else if w = "chmod".toList then { s with world := s.world.chmod (resolve dir (ws.getD 1 [])) }
    else
      match pipeline (w :: ws) with
      | Option.none => s
      | some (prog, args, out) => runProg X dir prog args out s

/-- The text after `pre` in the first line that starts with it. -/
def directive (pre : List Char) : List (List Char) → Option (List Char)
  | [] => Option.none
  | l :: r => if pre.isPrefixOf l then some (l.drop pre.length) else directive pre r

/-- A job started by the queue: `sbatch` gives it SLURM_CPUS_PER_TASK, the value of the script's option, and runs the script's lines in the
directory it was called in (manual page of sbatch).  Simplification: what Slurm itself writes to the file of `--output` is not modelled. -/
def runJob (X : Machine α) (dir script : List Char) (w : World) : Sh α :=
  (cut '\n' script).foldl (shLine X dir)
    ⟨w, match directive "#SBATCH --cpus-per-task=".toList (cut '\n' script) with
      | some n => [("SLURM_CPUS_PER_TASK".toList, n)]
      | Option.none => [], Option.none⟩

/-- sim_class.py:120-145: from the copying of the binary on.  A binary in a subdirectory of Bin cannot be copied (the new directory has no
such subdirectory). -/
def start (V : PyEnv α) (X : Machine α) (dir : List Char) (o : Obj α) (w : World) : Outcome α :=
  match o.get "bin_name" >>= PyObj.toStr with
  | .error e => failed w e
  | .ok bin =>
  match w.files (V.home ++ "/Bin/".toList ++ bin) with
  | Option.none => failed w .exc
  | some prog =>
  if '/' ∈ bin then failed w .exc else
  let w := w.put (dir ++ '/' :: bin) prog
  let o := o.set "output_file" (.str "out.txt".toList)
  match o.get "time_it" with
  | .error e => failed w e
  | .ok t =>
  let run := runStr t.truthy bin
  let o := o.set "run_str" (.str run)
  match o.get "computer" with
  | .error e => failed w e
  | .ok c =>
  if c.isHome then here o w bin run else submit o w bin run
where
  /-- sim_class.py:134-140 -/
  here (o : Obj α) (w : World) (bin run : List Char) : Outcome α :=
    match o.get "num_omp_levels", o.get "num_threads" with
    | .ok nlv, .ok nth =>
      let s := [("chmod 755 ".toList ++ bin), run].foldl (shLine X dir)
        ⟨w, [("OMP_NUM_THREADS".toList, V.str nth), ("OMP_MAX_ACTIVE_LEVELS".toList, V.str nlv)], Option.none⟩
      ⟨s.world, .ok o, s.solver, s.env, Option.none⟩
    | _, _ => failed w .exc
  /-- sim_class.py:141-145: the script is written and handed to `sbatch`, called in `dir` with the script's path.  Simplification: if an attribute is
  missing, the incomplete script is taken to be empty. -/
  submit (o : Obj α) (w : World) (bin run : List Char) : Outcome α :=
    match slurmText V o bin run with
    | .error e => failed (w.put (dir ++ "/run.slurm".toList) []) e
    | .ok t =>
      let w := w.put (dir ++ "/run.slurm".toList) t
      ⟨w, .ok o, none, [], match shWords ("sbatch ".toList ++ dir ++ "/run.slurm".toList) with
        | [_, p] => w.files (resolve dir p)
        | _ => Option.none⟩

/-- sim_class.py:147-149 `then_recompile`. -/
def then_recompile (X : Machine α) (o : Obj α) (w : World) : Exec World := do
  let b ← o.get "bin_name"
  let b ← b.toStr
  .ok (X.make ("make ".toList ++ b) (X.make ("make clean_obj".toList ++ b) w))

/-- sim_class.py:110-145 `launch_run`. -/
def launch_run (V : PyEnv α) (X : Machine α) (o : Obj α) (w : World) : Outcome α :=
  match set_derived_params V o with
  | .error e => failed w e
  | .ok o =>
  match choose_output_dir V o with
  | .error e => failed w e
  | .ok (o, dir) =>
  match w.makedirs dir with
  | .error e => failed w e
  | .ok w =>
  match o.get "recompile" with
  | .error e => failed w e
  | .ok r =>
  match (if r.isTrue then then_recompile X o w else .ok w) with
  | .error e => failed w e
  | .ok w =>
  let o := o.set "parameter_file" (.str "params.txt".toList)
  start V X dir o (w.put (dir ++ "/params.txt".toList) (paramsText V o))

end Launcher
end SFK
