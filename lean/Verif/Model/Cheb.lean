import Verif.Model.Scalar
/-
Model of /repo/Source/cheb.hpp and /repo/Source/cheb.cpp.

FFTW is an external call: `dct` gives the output of `fftw_execute_r2r` on the plan of line 34 (FFTW_REDFT00, size n) as
a function of its input; as FFTW promises for out-of-place r2r plans, the input is preserved.
-/
namespace SFK
open Scalar

/-- The data members of class Cheb (cheb.hpp:27-43) plus the build flag `NDEBUG`. -/
structure Cheb (α : Type) where
  n : Nat
  lower : α
  upper : α
  jacobian : α
  pts : List α
  lowPass : List α
  dct : List α → List α
  ndebug : Bool

namespace Cheb
variable {α : Type} [Scalar α]

/-- cheb.cpp:19-21, the loop filling `_pts`. -/
def mkPts (n : Nat) (lower upper jac : α) : Exec (List α) :=
  forRange 0 n (List.replicate n (0 : α)) fun i v =>
    wr v i (jac * cos (pi * dbl i / (dbl n - 1)) + ((upper + lower) / 2))

/-- cheb.cpp:25-27, the loop filling `_low_pass`. -/
def mkLow (n : Nat) : Exec (List α) :=
  forRange 0 n (List.replicate n (0 : α)) fun i v => wr v i (exp (-40 * pown (dbl i / dbl n) 16))

/-- cheb.cpp:7-38, the constructor; `planOk` is `_plan_dct!=nullptr` (line 36). -/
def mk' (n : Nat) (lower upper : α) (dct : List α → List α) (planOk ndebug : Bool) : Exec (Cheb α) := do
  let jac := (upper - lower) / 2
  let pts ← mkPts n lower upper jac
  let low ← mkLow n
  cassert ndebug planOk
  .ok { n := n, lower := lower, upper := upper, jacobian := jac, pts := pts, lowPass := low, dct := dct,
        ndebug := ndebug }

/-- cheb.cpp:139 `pt`. -/
def pt (c : Cheb α) (i : Nat) : Exec α := rd c.pts i

/-- `fftw_execute_r2r(_plan_dct, in, out)`: buffers shorter than the plan are undefined behaviour.  Returns the new
content of `out` (only the first `n` entries are read and written). -/
def fftw (c : Cheb α) (inp out : List α) : Exec (List α) :=
  if c.n ≤ inp.length ∧ c.n ≤ out.length then .ok (c.dct (inp.take c.n) ++ out.drop c.n) else .error .ub

/-- cheb.cpp:50-66 `to_ch`; returns the new content of `ch` (`po` is not changed). -/
def to_ch (c : Cheb α) (po ch : List α) : Exec (List α) := do
  cassert c.ndebug (po.length == c.n)
  cassert c.ndebug (ch.length == c.n)
  let ch ← c.fftw po ch
  let x ← rd ch 0
  let ch ← wr ch 0 (x / (2 * dbl (usub c.n 1)))
  let x ← rd ch (usub c.n 1)
  let ch ← wr ch (usub c.n 1) (x / (2 * dbl (usub c.n 1)))
  forRange 1 (usub c.n 1) ch fun i ch => do
    let x ← rd ch i
    wr ch i (x / dbl (usub c.n 1))

/-- cheb.cpp:70-84 `to_po`; returns the new contents of `(ch, po)`: the argument `ch` is overwritten. -/
def to_po (c : Cheb α) (ch po : List α) : Exec (List α × List α) := do
  cassert c.ndebug (ch.length == c.n)
  cassert c.ndebug (po.length == c.n)
  let ch ← forRange 1 (usub c.n 1) ch fun i ch => do
    let x ← rd ch i
    wr ch i (x / 2)
  let po ← c.fftw ch po
  .ok (ch, po)

/-- cheb.cpp:88-120 `der`; returns the new content of `dv`.  The loop of line 109 runs `i=n-2, n-3, ..., 1`
(`j` completed iterations, `i=n-2-j`). -/
def der (c : Cheb α) (v dv : List α) : Exec (List α) := do
  let ch : List α := List.replicate c.n 0
  cassert c.ndebug (v.length == c.n)
  cassert c.ndebug (dv.length == c.n)
  let ch ← c.to_ch v ch
  let ch ← wr ch (usub c.n 1) 0
  let ch ← wr ch (usub c.n 2) 0
  let dv ← forRange 0 c.n dv fun i dv => do
    let x ← rd ch i
    wr dv i x
  let ch ← forRange 0 (usub c.n 2) ch fun j ch => do
    let i := usub (usub c.n 2) j
    let x ← rd dv i
    let y ← rd ch (i + 1)
    wr ch (usub i 1) (2 * dbl i * x + y)
  let x ← rd ch 0
  let ch ← wr ch 0 (x / 2)
  let (_, dv) ← c.to_po ch dv
  forRange 0 c.n dv fun i dv => do
    let x ← rd dv i
    wr dv i (x / c.jacobian)

/-- cheb.cpp:124-134 `filter`, in place. -/
def filter (c : Cheb α) (v : List α) : Exec (List α) := do
  let ch : List α := List.replicate c.n 0
  cassert c.ndebug (v.length == c.n)
  let ch ← c.to_ch v ch
  let ch ← forRange 0 c.n ch fun i ch => do
    let x ← rd ch i
    let y ← rd c.lowPass i
    wr ch i (x * y)
  let (_, v) ← c.to_po ch v
  .ok v

end Cheb
end SFK
