import Verif.Model.Base
/-
Model of /repo/Source/grid.hpp: flat indices and row/slab extraction and insertion.
-/
namespace SFK

/-- Sizes of a `Grid` (grid.hpp:229-236, `_nx,_nl,_nm,_nlat,_nphi`) together with the two build flags that
select code inside it: `contig` is `SHTNS_CONTIGUOUS_LONGITUDES`, `ndebug` is `NDEBUG`. -/
structure Dims where
  nx : Nat
  nl : Nat
  nm : Nat
  nlat : Nat
  nphi : Nat
  contig : Bool
  ndebug : Bool
deriving Repr

namespace Dims
variable (d : Dims)

/-- grid.hpp:268-271 `indx_r_th`, in 64-bit unsigned arithmetic. -/
def indx_r_th (ix it : Nat) : Nat := uadd (umul d.nlat ix) it

/-- grid.hpp:272-275 `indx_r_ph`. -/
def indx_r_ph (ix ip : Nat) : Nat := uadd (umul d.nphi ix) ip

/-- grid.hpp:276-279 `indx_r_l`. -/
def indx_r_l (ix il : Nat) : Nat := uadd (umul d.nl ix) il

/-- grid.hpp:280-287 `indx_R_th_ph`, both branches of the `#if`. -/
def indx_R_th_ph (ix it ip : Nat) : Nat :=
  if d.contig then uadd (uadd (umul (umul d.nphi d.nlat) ix) (umul d.nlat ip)) it
  else uadd (uadd (umul (umul d.nlat d.nphi) ix) (umul d.nphi it)) ip

/-- grid.hpp:288-295 `indx_th_ph`, both branches of the `#if`. -/
def indx_th_ph (it ip : Nat) : Nat :=
  if d.contig then uadd (umul d.nlat ip) it else uadd (umul d.nphi it) ip

/-- sphere.hpp:102-109 `Sphere::indx`, both branches of the `#if` (the Sphere inside a Grid has the Grid's
`nlat,nphi`, grid.cpp:24). -/
def sphere_indx (i_th i_ph : Nat) : Nat :=
  if d.contig then uadd (umul d.nlat i_ph) i_th else uadd (umul d.nphi i_th) i_ph

/-- `_nx*_nphi*_nlat`, as it appears in the size assertions (grid.hpp:60 etc.). -/
def nFull : Nat := umul (umul d.nx d.nphi) d.nlat

variable {α : Type}

/-- grid.hpp:56-65 `get_row_R`: returns the new content of `out`. -/
def get_row_R (it ip : Nat) (inp out : List α) : Exec (List α) := do
  cassert d.ndebug (inp.length == d.nFull)
  cassert d.ndebug (out.length == d.nx)
  forRange 0 d.nx out fun ix out => do
    let x ← rd inp (d.indx_R_th_ph ix it ip)
    wr out ix x

/-- grid.hpp:66-75 `set_row_R`. -/
def set_row_R (it ip : Nat) (inp out : List α) : Exec (List α) := do
  cassert d.ndebug (inp.length == d.nx)
  cassert d.ndebug (out.length == d.nFull)
  forRange 0 d.nx out fun ix out => do
    let x ← rd inp ix
    wr out (d.indx_R_th_ph ix it ip) x

/-- grid.hpp:77-86 `get_row_th`. -/
def get_row_th (ix ip : Nat) (inp out : List α) : Exec (List α) := do
  cassert d.ndebug (inp.length == d.nFull)
  cassert d.ndebug (out.length == d.nlat)
  forRange 0 d.nlat out fun it out => do
    let x ← rd inp (d.indx_R_th_ph ix it ip)
    wr out it x

/-- grid.hpp:87-96 `set_row_th`. -/
def set_row_th (ix ip : Nat) (inp out : List α) : Exec (List α) := do
  cassert d.ndebug (inp.length == d.nlat)
  cassert d.ndebug (out.length == d.nFull)
  forRange 0 d.nlat out fun it out => do
    let x ← rd inp it
    wr out (d.indx_R_th_ph ix it ip) x

/-- grid.hpp:98-107 `get_row_ph`. -/
def get_row_ph (ix it : Nat) (inp out : List α) : Exec (List α) := do
  cassert d.ndebug (inp.length == d.nFull)
  cassert d.ndebug (out.length == d.nphi)
  forRange 0 d.nphi out fun ip out => do
    let x ← rd inp (d.indx_R_th_ph ix it ip)
    wr out ip x

/-- grid.hpp:108-117 `set_row_ph`.  NB the loop bound is `_nlat` (line 114), as in the code. -/
def set_row_ph (ix it : Nat) (inp out : List α) : Exec (List α) := do
  cassert d.ndebug (inp.length == d.nphi)
  cassert d.ndebug (out.length == d.nFull)
  forRange 0 d.nlat out fun ip out => do
    let x ← rd inp ip
    wr out (d.indx_R_th_ph ix it ip) x

/-- grid.hpp:119-128 `get_row_n`. -/
def get_row_n (il : Nat) (inp out : List α) : Exec (List α) := do
  cassert d.ndebug (inp.length == umul d.nx d.nl)
  cassert d.ndebug (out.length == d.nx)
  forRange 0 d.nx out fun ix out => do
    let x ← rd inp (d.indx_r_l ix il)
    wr out ix x

/-- grid.hpp:129-138 `set_row_n`. -/
def set_row_n (il : Nat) (inp out : List α) : Exec (List α) := do
  cassert d.ndebug (inp.length == d.nx)
  cassert d.ndebug (out.length == umul d.nx d.nl)
  forRange 0 d.nx out fun ix out => do
    let x ← rd inp ix
    wr out (d.indx_r_l ix il) x

/-- grid.hpp:140-151 `get_row_R_th`. -/
def get_row_R_th (ip : Nat) (inp out : List α) : Exec (List α) := do
  cassert d.ndebug (inp.length == d.nFull)
  cassert d.ndebug (out.length == umul d.nx d.nlat)
  forRange 0 d.nx out fun ix out => forRange 0 d.nlat out fun it out => do
    let x ← rd inp (d.indx_R_th_ph ix it ip)
    wr out (d.indx_r_th ix it) x

/-- grid.hpp:152-163 `set_row_R_th`. -/
def set_row_R_th (ip : Nat) (inp out : List α) : Exec (List α) := do
  cassert d.ndebug (inp.length == umul d.nx d.nlat)
  cassert d.ndebug (out.length == d.nFull)
  forRange 0 d.nx out fun ix out => forRange 0 d.nlat out fun it out => do
    let x ← rd inp (d.indx_r_th ix it)
    wr out (d.indx_R_th_ph ix it ip) x

/-- grid.hpp:165-176 `get_row_R_ph`.  NB the size assertion uses `_nx*_nlat` (line 170), as in the code. -/
def get_row_R_ph (it : Nat) (inp out : List α) : Exec (List α) := do
  cassert d.ndebug (inp.length == d.nFull)
  cassert d.ndebug (out.length == umul d.nx d.nlat)
  forRange 0 d.nx out fun ix out => forRange 0 d.nphi out fun ip out => do
    let x ← rd inp (d.indx_R_th_ph ix it ip)
    wr out (d.indx_r_ph ix ip) x

/-- grid.hpp:177-188 `set_row_R_ph`. -/
def set_row_R_ph (it : Nat) (inp out : List α) : Exec (List α) := do
  cassert d.ndebug (inp.length == umul d.nx d.nphi)
  cassert d.ndebug (out.length == d.nFull)
  forRange 0 d.nx out fun ix out => forRange 0 d.nphi out fun ip out => do
    let x ← rd inp (d.indx_r_ph ix ip)
    wr out (d.indx_R_th_ph ix it ip) x

/-- grid.hpp:190-201 `get_row_th_ph`. -/
def get_row_th_ph (ix : Nat) (inp out : List α) : Exec (List α) := do
  cassert d.ndebug (inp.length == d.nFull)
  cassert d.ndebug (out.length == umul d.nphi d.nlat)
  forRange 0 d.nlat out fun it out => forRange 0 d.nphi out fun ip out => do
    let x ← rd inp (d.indx_R_th_ph ix it ip)
    wr out (d.indx_th_ph it ip) x

/-- grid.hpp:202-214 `set_row_th_ph`. -/
def set_row_th_ph (ix : Nat) (inp out : List α) : Exec (List α) := do
  cassert d.ndebug (inp.length == umul d.nphi d.nlat)
  cassert d.ndebug (out.length == d.nFull)
  forRange 0 d.nlat out fun it out => forRange 0 d.nphi out fun ip out => do
    let x ← rd inp (d.indx_th_ph it ip)
    wr out (d.indx_R_th_ph ix it ip) x

/-- grid.hpp:216-225 `set_row_l`. -/
def set_row_l (ix : Nat) (lvals Rlvals : List α) : Exec (List α) := do
  cassert d.ndebug (lvals.length == d.nl)
  cassert d.ndebug (Rlvals.length == umul d.nx d.nl)
  forRange 0 d.nl Rlvals fun il Rlvals => do
    let x ← rd lvals il
    wr Rlvals (d.indx_r_l ix il) x

end Dims
end SFK
