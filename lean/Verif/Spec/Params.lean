import Verif.Model.Params
/-
What a parameter file says, in terms of its lines.
-/
namespace SFK

/-- `ls` are the lines of the text: each line is ended by a newline, except possibly a last non-empty one. -/
def FileLines (text : List Char) (ls : List (List Char)) : Prop :=
  (∀ l ∈ ls, '\n' ∉ l) ∧ (text = ls.flatMap (fun l => l ++ ['\n']) ∨
    ∃ init last, ls = init ++ [last] ∧ last ≠ [] ∧ text = init.flatMap (fun l => l ++ ['\n']) ++ last)

/-- The line is about the parameter `name`: it is exactly the name, or starts with the name followed by a space. -/
def Named (name l : List Char) : Prop := l = name ∨ ∃ r, l = name ++ ' ' :: r

/-- The white space of the C locale: the space, and the control characters 9 (tab) to 13 (tab, newline, vertical tab, form feed,
carriage return). -/
def White (c : Char) : Bool := decide (c.toNat = 32 ∨ 9 ≤ c.toNat ∧ c.toNat ≤ 13)

/-- `tok` is the first white-space delimited token of `s`. -/
def FirstToken (s tok : List Char) : Prop :=
  ∃ ws tail, s = ws ++ tok ++ tail ∧ (∀ c ∈ ws, White c = true) ∧ (∀ c ∈ tok, White c = false) ∧
    (tail = [] ∨ ∃ c t, tail = c :: t ∧ White c = true) ∧ (tok = [] → tail = [])

/-- The parameters the solver reads, in order: integers, numbers, strings. -/
def intParams : List String := ["nt", "nx", "nl", "nm", "nlat", "nphi", "t_step_save", "l_ang", "m_ang"]
def dblParams : List String := ["dt", "compactification_length", "Rmax", "Rmin", "black_hole_mass", "black_hole_spin", "km1", "k0",
  "k1", "k2", "V2", "V3", "V4", "amp", "rl", "ru"]
def strParams : List String := ["initial_data_type", "initial_data_direction"]
def required : List String := intParams ++ dblParams ++ strParams

/-- `t` is text for the integer `n` as the C library reads it: white space, an optional sign, decimal digits up to the first character
that is not one; anything after that is ignored. -/
def IntText (t : List Char) (n : Int) : Prop :=
  ∃ ws sign ds tail, t = ws ++ sign ++ ds ++ tail ∧ (∀ c ∈ ws, White c = true) ∧ ds ≠ [] ∧ (∀ c ∈ ds, c.isDigit = true) ∧
    (∀ c, tail.head? = some c → c.isDigit = false) ∧
    ((sign = [] ∨ sign = ['+']) ∧ n = Nat.ofDigitChars 10 ds 0 ∨ sign = ['-'] ∧ n = -(Nat.ofDigitChars 10 ds 0 : Int))

/-- An `int` (32 bits). -/
def IsInt (n : Int) : Prop := -2 ^ 31 ≤ n ∧ n < 2 ^ 31

/-- A `size_t` (64 bits) made from an `int`: a non-negative number is itself, a negative one wraps around. -/
def SizeOf (n : Int) (u : Nat) : Prop := 0 ≤ n ∧ (u : Int) = n ∨ n < 0 ∧ (u : Int) = 2 ^ 64 + n

/-- The parameter record `P` is what the file says, `val name` being the value text the file gives to `name`. -/
structure ParamsFrom {α : Type} (stod : List Char → Option α) (val : String → Option (List Char)) (P : ParamRec α) : Prop where
  h_nt : ∃ t n, val "nt" = some t ∧ IntText t n ∧ IsInt n ∧ SizeOf n P.nt
  h_nx : ∃ t n, val "nx" = some t ∧ IntText t n ∧ IsInt n ∧ SizeOf n P.nx
  h_nl : ∃ t n, val "nl" = some t ∧ IntText t n ∧ IsInt n ∧ SizeOf n P.nl
  h_nm : ∃ t n, val "nm" = some t ∧ IntText t n ∧ IsInt n ∧ SizeOf n P.nm
  h_nlat : ∃ t n, val "nlat" = some t ∧ IntText t n ∧ IsInt n ∧ SizeOf n P.nlat
  h_nphi : ∃ t n, val "nphi" = some t ∧ IntText t n ∧ IsInt n ∧ SizeOf n P.nphi
  h_ts : ∃ t n, val "t_step_save" = some t ∧ IntText t n ∧ IsInt n ∧ SizeOf n P.t_step_save
  h_dt : ∃ t, val "dt" = some t ∧ stod t = some P.dt
  h_cl : ∃ t, val "compactification_length" = some t ∧ stod t = some P.cl
  h_Rmax : ∃ t, val "Rmax" = some t ∧ stod t = some P.Rmax
  h_Rmin : ∃ t, val "Rmin" = some t ∧ stod t = some P.Rmin
  h_mass : ∃ t, val "black_hole_mass" = some t ∧ stod t = some P.bh_mass
  h_spin : ∃ t, val "black_hole_spin" = some t ∧ stod t = some P.bh_spin
  h_km1 : ∃ t, val "km1" = some t ∧ stod t = some P.km1
  h_k0 : ∃ t, val "k0" = some t ∧ stod t = some P.k0
  h_k1 : ∃ t, val "k1" = some t ∧ stod t = some P.k1
  h_k2 : ∃ t, val "k2" = some t ∧ stod t = some P.k2
  h_V2 : ∃ t, val "V2" = some t ∧ stod t = some P.V2
  h_V3 : ∃ t, val "V3" = some t ∧ stod t = some P.V3
  h_V4 : ∃ t, val "V4" = some t ∧ stod t = some P.V4
  h_id : val "initial_data_type" = some P.id
  h_dir : val "initial_data_direction" = some P.direction
  h_amp : ∃ t, val "amp" = some t ∧ stod t = some P.amp
  h_rl : ∃ t, val "rl" = some t ∧ stod t = some P.rl
  h_ru : ∃ t, val "ru" = some t ∧ stod t = some P.ru
  h_l : ∃ t n, val "l_ang" = some t ∧ IntText t n ∧ IsInt n ∧ P.l_ang = n
  h_m : ∃ t n, val "m_ang" = some t ∧ IntText t n ∧ IsInt n ∧ P.m_ang = n

/-- The value a file with these lines gives to a name: the first token after the name on the first line about it. -/
def ValueIn (ls : List (List Char)) (name v : List Char) : Prop :=
  ∃ pre l post, ls = pre ++ l :: post ∧ (∀ x ∈ pre, ¬ Named name x) ∧
    (l = name ∧ v = [] ∨ ∃ rest, l = name ++ ' ' :: rest ∧ FirstToken rest v)

end SFK
