import Verif.Model.LaunchRun
import Verif.Spec.Params
import Verif.Spec.Run
/-
Vocabulary of C85, C86, C87: what a launch is given and what it is to leave behind.
-/
namespace SFK
open Scalar
namespace Launcher
variable {α : Type} [Scalar α]

/-- A file system: the place of every file is an existing directory, and so is every parent of a directory. -/
structure World.Tree (w : World) : Prop where
  files : ∀ d r, (w.files (d ++ '/' :: r)).isSome → w.dirs d = true
  dirs : ∀ d r, w.dirs (d ++ '/' :: r) = true → w.dirs d = true

/-- `q` is a file directly in the directory `dir`. -/
def In (dir q : List Char) : Prop := ∃ r, q = dir ++ '/' :: r ∧ '/' ∉ r

/-- The python value `v` is the number `x`. -/
def IsNum (v : PyObj α) (x : α) : Prop := v = .flt x ∨ ∃ n : Int, v = .int n ∧ x = lit n

/-- The attribute has a value that counts as the number `x`, and whose printed form the solver reads as `x`: a single word. -/
def Reads (V : PyEnv α) (stod : List Char → Option α) (v : PyObj α) (x : α) : Prop :=
  IsNum v x ∧ V.str v ≠ [] ∧ (∀ c ∈ V.str v, White c = false) ∧ stod (V.str v) = some x

/-- The object's attributes say what the settings say. -/
structure Describes (V : PyEnv α) (stod : List Char → Option α) (o : Obj α) (S : Settings α) : Prop where
  mass : ∃ v, o.get "black_hole_mass" = .ok v ∧ Reads V stod v S.mass
  spin : ∃ v, o.get "black_hole_spin" = .ok v ∧ Reads V stod v S.spin
  cl : ∃ v, o.get "compactification_length" = .ok v ∧ Reads V stod v S.cl
  km1 : ∃ v, o.get "km1" = .ok v ∧ Reads V stod v S.km1
  k0 : ∃ v, o.get "k0" = .ok v ∧ Reads V stod v S.k0
  k1 : ∃ v, o.get "k1" = .ok v ∧ Reads V stod v S.k1
  k2 : ∃ v, o.get "k2" = .ok v ∧ Reads V stod v S.k2
  V2 : ∃ v, o.get "V2" = .ok v ∧ Reads V stod v S.V2
  V3 : ∃ v, o.get "V3" = .ok v ∧ Reads V stod v S.V3
  V4 : ∃ v, o.get "V4" = .ok v ∧ Reads V stod v S.V4
  amp : ∃ v, o.get "amp" = .ok v ∧ Reads V stod v S.amp
  evolve_time : ∃ v, o.get "evolve_time" = .ok v ∧ IsNum v S.evolve_time
  rl_0 : ∃ v, o.get "rl_0" = .ok v ∧ IsNum v S.rl_0
  ru_0 : ∃ v, o.get "ru_0" = .ok v ∧ IsNum v S.ru_0
  cfl : S.use_cheb = false → ∃ v, o.get "cfl" = .ok v ∧ IsNum v S.cfl
  use_cheb : o.get "use_cheb" = .ok (.bool S.use_cheb)
  num_saved_times : o.get "num_saved_times" = .ok (.int S.num_saved_times)
  nx : o.get "nx" = .ok (.int S.nx)
  nl : o.get "nl" = .ok (.int S.nl)
  nm : o.get "nm" = .ok (.int S.nm)
  nlat : o.get "nlat" = .ok (.int S.nlat)
  nphi : o.get "nphi" = .ok (.int S.nphi)
  l_ang : o.get "l_ang" = .ok (.int S.l_ang)
  m_ang : o.get "m_ang" = .ok (.int S.m_ang)
  id : o.get "initial_data_type" = .ok (.str S.id)
  direction : o.get "initial_data_direction" = .ok (.str S.direction)
  id_word : S.id ≠ [] ∧ ∀ c ∈ S.id, White c = false
  direction_word : S.direction ≠ [] ∧ ∀ c ∈ S.direction, White c = false

/-- The settings do not make the launcher divide by zero or take the root of a negative number, the numbers it derives are printed such
that the solver reads them back, and the integers it writes are `int`s.  `toInt` is python's `int` of the number of steps. -/
structure Regular (V : PyEnv α) (stod : List Char → Option α) (toInt : α → Nat) (S : Settings α) : Prop where
  disc : lt ((S.mass - S.spin) * (S.mass + S.spin)) 0 = false
  cl : V.isZero S.cl = false
  compact : V.isZero (1 + horizon S.mass S.spin / S.cl) = false
  points : (if S.use_cheb then max S.nx (max S.nlat S.nphi) else max S.nlat S.nphi) ≠ 0
  spacing : S.use_cheb = false → V.isZero (dbl S.nx - 1) = false
  step : V.isZero (timeStep S.use_cheb S.cfl S.nx S.nlat S.nphi) = false
  saves : S.num_saved_times ≠ 0
  steps : V.toInt (S.evolve_time * S.mass / timeStep S.use_cheb S.cfl S.nx S.nlat S.nphi)
    = .ok (toInt (S.evolve_time * S.mass / timeStep S.use_cheb S.cfl S.nx S.nlat S.nphi) : Int)
  printed : ∀ x ∈ [(params toInt S).dt, (params toInt S).Rmin, (params toInt S).rl, (params toInt S).ru], Reads V stod (.flt x) x
  ints : ∀ n ∈ [(params toInt S).nt, (params toInt S).t_step_save, S.nx, S.nl, S.nm, S.nlat, S.nphi], n < 2 ^ 31
  l_ang : IsInt S.l_ang
  m_ang : IsInt S.m_ang

/-- What can be written to a parameter file without confusing its lines: attribute names without spaces and newlines, values without
newlines, no attribute twice (python guarantees it); the same for the texts the launcher puts in. -/
structure Clean (V : PyEnv α) (o : Obj α) : Prop where
  names : ∀ a ∈ o, ' ' ∉ a.1 ∧ '\n' ∉ a.1
  texts : ∀ a ∈ o, '\n' ∉ V.str a.2
  distinct : (o.map Prod.fst).Nodup

/-- ... and for the texts the launcher itself puts in. -/
structure CleanEnv (V : PyEnv α) : Prop where
  fmt : ∀ x, '\n' ∉ V.fmt x
  cplx : '\n' ∉ V.cplxText
  home : '\n' ∉ V.home
  month : '\n' ∉ V.month
  day : '\n' ∉ V.day
  clock : '\n' ∉ V.clock

/-- The name of the run: what the user set, or else `/Mon_day_hh_mm_ss_m<mass>_s<spin>_nx<nx>_nl<nl>_nm<nm>`. -/
def StemOf (V : PyEnv α) (o : Obj α) (stem : List Char) : Prop :=
  o.get "output_dir" = .ok (.str stem) ∨
  o.get "output_dir" = .ok .none ∧ ∃ m s nx nl nm, o.get "black_hole_mass" = .ok m ∧ o.get "black_hole_spin" = .ok s ∧ o.get "nx" = .ok nx ∧
    o.get "nl" = .ok nl ∧ o.get "nm" = .ok nm ∧
    stem = "/".toList ++ V.month ++ "_".toList ++ V.day ++ "_".toList ++ V.clock.map (fun c => if c = ':' then '_' else c) ++ "_m".toList
      ++ V.str m ++ "_s".toList ++ V.str s ++ "_nx".toList ++ V.str nx ++ "_nl".toList ++ V.str nl ++ "_nm".toList ++ V.str nm

/-- The directory of the run: in `Output` where the script was started, or, on another computer, in the place the user set. -/
def DirOf (V : PyEnv α) (o : Obj α) (dir : List Char) : Prop :=
  ∃ stem, StemOf V o stem ∧
    (o.get "computer" = .ok (.str "home".toList) ∧ dir = V.home ++ "/Output".toList ++ stem ∨
      ∃ c s, o.get "computer" = .ok (.str c) ∧ c ≠ "home".toList ∧ o.get "out_stem" = .ok (.str s) ∧ dir = s ++ stem)

/-- A name that means nothing special to the shell: letters, digits, `_`, `-`, `.`. -/
def Plain (b : List Char) : Prop := b ≠ [] ∧ ∀ c ∈ b, c.isAlphanum = true ∨ c = '_' ∨ c = '-' ∨ c = '.'

/-- The python value equals `True`: it is `True` or `1`. -/
def EqTrue (v : PyObj α) : Prop := v = .bool true ∨ v = .int 1

/-- The object's binary has such a name. -/
def PlainBin (o : Obj α) : Prop := ∀ b, o.get "bin_name" = .ok (.str b) → Plain b

/-- A sequence of launches, each by an object in some surroundings. -/
def launches (L : List (PyEnv α × Machine α × Obj α)) (w : World) : World :=
  L.foldl (fun w l => (launch_run l.1 l.2.1 l.2.2 w).world) w

/-- Everything is ready for a run in the directory `dir`, which is new, with the binary `bin`, which is the build `E` of the
solver. -/
structure Ready (V : PyEnv α) (X : Machine α) (o : Obj α) (w : World) (dir bin : List Char) (E : Env α) : Prop where
  is_dir : DirOf V o dir
  recompile : ∃ r, o.get "recompile" = .ok r ∧ ¬ EqTrue r
  bin_name : o.get "bin_name" = .ok (.str bin)
  bin_plain : Plain bin
  bin_run : ".run".toList <:+ bin
  binary : ∃ prog, w.files (V.home ++ "/Bin/".toList ++ bin) = some prog ∧ X.build prog = some E
  time_it : ∃ v, o.get "time_it" = .ok v
  levels : ∃ v, o.get "num_omp_levels" = .ok v
  threads : ∃ v, o.get "num_threads" = .ok v
  new : w.dirs dir = false
  no_file : ∀ d, (d = dir ∨ ∃ r, dir = d ++ '/' :: r) → w.files d = none

/-- Ready for a run on a cluster: the computer has another name, the place of the runs has an absolute path without spaces, the attributes that the
queue needs are there, and threads and levels are single words (numbers). -/
structure Queued (V : PyEnv α) (o : Obj α) (dir : List Char) : Prop where
  computer : ∃ c, o.get "computer" = .ok (.str c) ∧ c ≠ "home".toList
  absolute : dir.head? = some '/'
  no_space : ' ' ∉ dir
  walltime : ∃ v, o.get "walltime" = .ok v
  memory : ∃ v, o.get "memory" = .ok v
  email : ∃ v, o.get "email" = .ok v
  levels : ∀ v, o.get "num_omp_levels" = .ok v → ' ' ∉ V.str v ∧ (V.str v).head? ≠ some '$'

end Launcher
end SFK
