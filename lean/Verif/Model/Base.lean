/-
Execution base for the model of scalar-field-kerr: outcomes, bounds-checked vectors,
`size_t` arithmetic and `for` loops.  Nothing here models a particular file of /repo;
these are the C++ language features the rest of the model is written in.
-/
namespace SFK

/-- Abnormal outcomes of a C++ execution.
* `ub`    : undefined behaviour (out-of-range `std::vector` access, integer `% 0`, ...);
* `abort` : a failed `assert` in a build without `NDEBUG`;
* `exc`   : an exception that nobody catches (`std::stoi`/`std::stod`), hence `std::terminate`;
* `exit s`: `std::quick_exit(s)`. -/
inductive Err where
  | ub
  | abort
  | exc
  | exit (status : Nat)
deriving DecidableEq, Repr

/-- Result of running a piece of C++ code. -/
abbrev Exec (α : Type) := Except Err α

/-- `v[i]` read on a `std::vector` (or heap buffer) of length `v.length`. -/
def rd {α : Type} (v : List α) (i : Nat) : Exec α :=
  match v[i]? with
  | some x => .ok x
  | none => .error .ub

/-- `v[i] = x` on a `std::vector` (or heap buffer) of length `v.length`. -/
def wr {α : Type} (v : List α) (i : Nat) (x : α) : Exec (List α) :=
  if i < v.length then .ok (v.set i x) else .error .ub

/-- `assert(c)`: compiled away under `-DNDEBUG` (Source/Makefile:18-22). -/
def cassert (ndebug : Bool) (c : Bool) : Exec Unit :=
  if c || ndebug then .ok () else .error .abort

/-- `cnt` iterations of a loop body starting at counter `i`. -/
def forN {σ : Type} : Nat → Nat → σ → (Nat → σ → Exec σ) → Exec σ
  | 0, _, s, _ => .ok s
  | c + 1, i, s, b =>
    match b i s with
    | .ok s' => forN c (i + 1) s' b
    | .error e => .error e

/-- `for (size_t i=lo; i<hi; i++) body` with the mutable state threaded through. -/
def forRange {σ : Type} (lo hi : Nat) (s : σ) (b : Nat → σ → Exec σ) : Exec σ :=
  forN (hi - lo) lo s b

/-- Number of values of `size_t` on the LP64 targets of the Makefile (g++, *nix). -/
def W : Nat := 2 ^ 64

/-- `a - b` on `size_t` (wraps modulo 2^64); arguments are assumed to be `size_t` values. -/
def usub (a b : Nat) : Nat := (a + W - b) % W

/-- `a + b` on `size_t`. -/
def uadd (a b : Nat) : Nat := (a + b) % W

/-- `a * b` on `size_t`. -/
def umul (a b : Nat) : Nat := (a * b) % W

/-- The vector of length `n` whose entry `i` is `f i` (specification-level notation). -/
def tab {α : Type} (n : Nat) (f : Nat → α) : List α := (List.range n).map f

/-- Entry `i` of a vector, with a default outside (specification-level notation; the modelled code
itself only ever uses the bounds-checked `rd` and `wr`). -/
def gv {α : Type} [Inhabited α] (v : List α) (i : Nat) : α := (v[i]?).getD default

end SFK
