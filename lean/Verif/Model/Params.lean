import Verif.Model.ParamRec
import Verif.Model.Sphere
/-
Model of /repo/Source/params.cpp: reading the parameter file.  Text is a list of characters (bytes); the C++ library functions used
(`std::getline`, `operator>>(istream&,string&)`, `std::stoi`) are modelled by their documented behaviour; `std::stod` is a parameter
of the model (`none` = it throws).
-/
namespace SFK

namespace Text

/-- `std::isspace` in the C locale. -/
def isSpace (c : Char) : Bool :=
  c == ' ' || c == '\t' || c == '\n' || c == '\r' || c == Char.ofNat 11 || c == Char.ofNat 12

/-- `std::getline(stream, str, delim)` on a stream with the given characters left: `none` if it fails (nothing left), else the
extracted string and what is left after the delimiter. -/
def getline (delim : Char) (s : List Char) : Option (List Char × List Char) :=
  if s = [] then none else some (s.takeWhile (· != delim), (s.dropWhile (· != delim)).drop 1)

/-- `stream >> str` starting from an empty `str`: skip white space, extract up to the next white space (empty if nothing is left). -/
def extract (s : List Char) : List Char := (s.dropWhile isSpace).takeWhile fun c => !isSpace c

theorem getline_lt {delim : Char} {s l r : List Char} (h : getline delim s = some (l, r)) : r.length < s.length := by
  unfold getline at h
  split at h
  · cases h
  · rename_i hs
    simp only [Option.some.injEq, Prod.mk.injEq] at h
    rw [← h.2]
    cases s with
    | nil => exact absurd rfl hs
    | cons c t =>
      have h1 : ((c :: t).dropWhile (· != delim)).length ≤ (c :: t).length := (List.dropWhile_suffix _).length_le
      simp only [List.length_drop, List.length_cons] at h1 ⊢
      omega

/-- `std::stoi`: optional white space and sign, then decimal digits up to the first other character; throws `invalid_argument` if there
is no digit and `out_of_range` if the value is not an `int`. -/
def stoi (s : List Char) : Exec Int :=
  let s := s.dropWhile isSpace
  let neg := s.head? == some '-'
  let s := if s.head? == some '-' || s.head? == some '+' then s.tail else s
  let ds := s.takeWhile Char.isDigit
  if ds = [] then .error .exc
  else
    let v : Int := if neg then -(Nat.ofDigitChars 10 ds 0 : Int) else (Nat.ofDigitChars 10 ds 0 : Int)
    if v < -2 ^ 31 ∨ 2 ^ 31 ≤ v then .error .exc else .ok v

/-- `std::to_string(int)`. -/
def toStr (n : Int) : List Char :=
  if n < 0 then '-' :: Nat.toDigits 10 n.natAbs else Nat.toDigits 10 n.natAbs

end Text

open Text

namespace Params

/-- params.cpp:70-84, the loop of `_read` over the lines of the file: the value if the name is found. -/
def readLoop (name : List Char) (s : List Char) : Option (List Char) :=
  match h : getline '\n' s with
  | none => none
  | some (line, rest) =>
    -- line 74: `std::getline(linestream, name, ' ')`; on an empty line it fails and leaves the empty string
    let nm := match getline ' ' line with
      | some (a, _) => a
      | none => []
    let left := match getline ' ' line with
      | some (_, r) => r
      | none => []
    if nm = name then some (extract left) else readLoop name rest
termination_by s.length
decreasing_by exact getline_lt h

/-- params.cpp:61-87 `_read`.  `file` is the content of the parameter file, `none` if it cannot be opened (line 66 asserts that it
can). -/
def read (ndebug : Bool) (file : Option (List Char)) (name : String) : Exec (List Char) := do
  cassert ndebug file.isSome
  match readLoop name.toList (file.getD []) with
  | some v => .ok v
  | none => .error (.exit 0)

/-- The conversion of the `int` returned by `std::stoi` to a `size_t` member (params.cpp:14-21). -/
def size (v : Int) : Nat := Sphere.toU v

/-- An integer parameter. -/
def readInt (ndebug : Bool) (file : Option (List Char)) (name : String) : Exec Int := do
  let t ← read ndebug file name
  stoi t

/-- A floating point parameter, `std::stod(_read(...))`. -/
def readDbl {α : Type} (stod : List Char → Option α) (ndebug : Bool) (file : Option (List Char)) (name : String) : Exec α := do
  let t ← read ndebug file name
  match stod t with
  | some x => .ok x
  | none => .error .exc

/-- params.cpp:11-55, the constructor. -/
def ctor {α : Type} (stod : List Char → Option α) (ndebug : Bool) (file : Option (List Char)) : Exec (ParamRec α) := do
  let nt ← readInt ndebug file "nt"
  let nx ← readInt ndebug file "nx"
  let nl ← readInt ndebug file "nl"
  let nm ← readInt ndebug file "nm"
  let nlat ← readInt ndebug file "nlat"
  let nphi ← readInt ndebug file "nphi"
  let ts ← readInt ndebug file "t_step_save"
  let dt ← readDbl stod ndebug file "dt"
  let cl ← readDbl stod ndebug file "compactification_length"
  let Rmax ← readDbl stod ndebug file "Rmax"
  let Rmin ← readDbl stod ndebug file "Rmin"
  let mass ← readDbl stod ndebug file "black_hole_mass"
  let spin ← readDbl stod ndebug file "black_hole_spin"
  let km1 ← readDbl stod ndebug file "km1"
  let k0 ← readDbl stod ndebug file "k0"
  let k1 ← readDbl stod ndebug file "k1"
  let k2 ← readDbl stod ndebug file "k2"
  let V2 ← readDbl stod ndebug file "V2"
  let V3 ← readDbl stod ndebug file "V3"
  let V4 ← readDbl stod ndebug file "V4"
  let id ← read ndebug file "initial_data_type"
  let dir ← read ndebug file "initial_data_direction"
  let amp ← readDbl stod ndebug file "amp"
  let rl ← readDbl stod ndebug file "rl"
  let ru ← readDbl stod ndebug file "ru"
  let l ← readInt ndebug file "l_ang"
  let m ← readInt ndebug file "m_ang"
  .ok { nt := size nt, nx := size nx, nl := size nl, nm := size nm, nlat := size nlat, nphi := size nphi, t_step_save := size ts,
        dt := dt, cl := cl, Rmin := Rmin, Rmax := Rmax, bh_mass := mass, bh_spin := spin, km1 := km1, k0 := k0, k1 := k1, k2 := k2,
        V2 := V2, V3 := V3, V4 := V4, id := id, direction := dir, amp := amp, rl := rl, ru := ru, l_ang := l, m_ang := m }

end Params

namespace Launcher

/-- The printed form of an attribute of the python object: the text of a scalar, or the texts of the elements of a list. -/
inductive PyVal where
  | scalar (text : List Char)
  | list (texts : List (List Char))

/-- sim_class.py:78-85: the line written for one attribute. -/
def paramLine (name : List Char) : PyVal → List Char
  | .scalar t => name ++ ' ' :: t ++ ['\n']
  | .list ts => name ++ ts.flatMap (fun t => ' ' :: t) ++ ['\n']

/-- sim_class.py:74-85 `write_sim_params`: the content of `params.txt`; `attrs` are the attributes `vars(self)` in order. -/
def write_sim_params (attrs : List (List Char × PyVal)) : List Char := attrs.flatMap fun a => paramLine a.1 a.2

end Launcher
end SFK
