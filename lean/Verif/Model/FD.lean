import Verif.Model.Scalar
/-
Model of /repo/Source/finite_diff.hpp and /repo/Source/finite_diff.cpp.
-/
namespace SFK
open Scalar

/-- read seven entries and combine them (the operands of one stencil expression) -/
def rd7 {α : Type} (v : List α) (i0 i1 i2 i3 i4 i5 i6 : Nat) (f : α → α → α → α → α → α → α → α) : Exec α := do
  let x0 ← rd v i0
  let x1 ← rd v i1
  let x2 ← rd v i2
  let x3 ← rd v i3
  let x4 ← rd v i4
  let x5 ← rd v i5
  let x6 ← rd v i6
  .ok (f x0 x1 x2 x3 x4 x5 x6)

/-- read eight entries and combine them -/
def rd8 {α : Type} (v : List α) (i0 i1 i2 i3 i4 i5 i6 i7 : Nat)
    (f : α → α → α → α → α → α → α → α → α) : Exec α := do
  let x0 ← rd v i0
  let x1 ← rd v i1
  let x2 ← rd v i2
  let x3 ← rd v i3
  let x4 ← rd v i4
  let x5 ← rd v i5
  let x6 ← rd v i6
  let x7 ← rd v i7
  .ok (f x0 x1 x2 x3 x4 x5 x6 x7)

/-- The data members of class FD (finite_diff.hpp:25-29) plus the build flag `NDEBUG`. -/
structure FD (α : Type) where
  n : Nat
  lower : α
  upper : α
  dx : α
  ndebug : Bool

namespace FD
variable {α : Type} [Scalar α]

/-- finite_diff.cpp:7-15, the constructor; `_n-1` is unsigned (the two `cout` lines are not
modelled). -/
def mk' (n : Nat) (lower upper : α) (ndebug : Bool) : FD α :=
  { n := n, lower := lower, upper := upper, dx := (upper - lower) / dbl (usub n 1), ndebug := ndebug }

/-- finite_diff.cpp:221 `FD::pt`. -/
def pt (fd : FD α) (i : Nat) : α := fd.dx * dbl i + fd.lower

/-- finite_diff.cpp:28-37, row 0 (also used mirrored at line 59-68). -/
def derE0 (v0 v1 v2 v3 v4 v5 v6 : α) : α :=
  -(49/20)*v0 + 6*v1 - (15/2)*v2 + (20/3)*v3 - (15/4)*v4 + (6/5)*v5 - (1/6)*v6

/-- finite_diff.cpp:38-47, row 1 (mirrored at 69-78). -/
def derE1 (v0 v1 v2 v3 v4 v5 v6 : α) : α :=
  -(1/6)*v0 - (77/60)*v1 + (5/2)*v2 - (5/3)*v3 + (5/6)*v4 - (1/4)*v5 + (1/30)*v6

/-- finite_diff.cpp:48-57, row 2 (mirrored at 79-88). -/
def derE2 (v0 v1 v2 v3 v4 v5 v6 : α) : α :=
  (1/30)*v0 - (2/5)*v1 - (7/12)*v2 + (4/3)*v3 - (1/2)*v4 + (2/15)*v5 - (1/60)*v6

/-- finite_diff.cpp:90-97, interior row; arguments in the order i+3,i+2,i+1,i-1,i-2,i-3. -/
def derI (vp3 vp2 vp1 vm1 vm2 vm3 : α) : α :=
  (1/60)*vp3 - (3/20)*vp2 + (3/4)*vp1 - (3/4)*vm1 + (3/20)*vm2 - (1/60)*vm3

/-- finite_diff.cpp:23-99 `FD::der`: returns the new content of `dv`. -/
def der (fd : FD α) (v dv : List α) : Exec (List α) := do
  cassert fd.ndebug (v.length == fd.n)
  cassert fd.ndebug (dv.length == fd.n)
  let n1 := usub fd.n 1
  let x ← rd7 v 0 1 2 3 4 5 6 fun v0 v1 v2 v3 v4 v5 v6 => derE0 v0 v1 v2 v3 v4 v5 v6 / fd.dx
  let dv ← wr dv 0 x
  let x ← rd7 v 0 1 2 3 4 5 6 fun v0 v1 v2 v3 v4 v5 v6 => derE1 v0 v1 v2 v3 v4 v5 v6 / fd.dx
  let dv ← wr dv 1 x
  let x ← rd7 v 0 1 2 3 4 5 6 fun v0 v1 v2 v3 v4 v5 v6 => derE2 v0 v1 v2 v3 v4 v5 v6 / fd.dx
  let dv ← wr dv 2 x
  let x ← rd7 v (usub n1 0) (usub n1 1) (usub n1 2) (usub n1 3) (usub n1 4) (usub n1 5) (usub n1 6)
    fun v0 v1 v2 v3 v4 v5 v6 => -(derE0 v0 v1 v2 v3 v4 v5 v6) / fd.dx
  let dv ← wr dv (usub fd.n 1) x
  let x ← rd7 v (usub n1 0) (usub n1 1) (usub n1 2) (usub n1 3) (usub n1 4) (usub n1 5) (usub n1 6)
    fun v0 v1 v2 v3 v4 v5 v6 => -(derE1 v0 v1 v2 v3 v4 v5 v6) / fd.dx
  let dv ← wr dv (usub fd.n 2) x
  let x ← rd7 v (usub n1 0) (usub n1 1) (usub n1 2) (usub n1 3) (usub n1 4) (usub n1 5) (usub n1 6)
    fun v0 v1 v2 v3 v4 v5 v6 => -(derE2 v0 v1 v2 v3 v4 v5 v6) / fd.dx
  let dv ← wr dv (usub fd.n 3) x
  forRange 3 (usub fd.n 3) dv fun i dv => do
    let a ← rd v (i+3)
    let b ← rd v (i+2)
    let c ← rd v (i+1)
    let e ← rd v (i-1)
    let f ← rd v (i-2)
    let g ← rd v (i-3)
    wr dv i (derI a b c e f g / fd.dx)

/-- finite_diff.cpp:108-118, row 0 of `der2` (mirrored at 142-152). -/
def der2E0 (v0 v1 v2 v3 v4 v5 v6 v7 : α) : α :=
  (469/90)*v0 - (223/10)*v1 + (879/20)*v2 - (949/18)*v3 + 41*v4 - (201/10)*v5 + (1019/180)*v6 - (7/10)*v7

/-- finite_diff.cpp:119-129, row 1 (mirrored at 153-163). -/
def der2E1 (v0 v1 v2 v3 v4 v5 v6 v7 : α) : α :=
  (7/10)*v0 - (7/18)*v1 - (27/10)*v2 + (19/4)*v3 - (67/18)*v4 + (9/5)*v5 - (1/2)*v6 + (11/180)*v7

/-- finite_diff.cpp:130-140, row 2 (mirrored at 164-174). -/
def der2E2 (v0 v1 v2 v3 v4 v5 v6 v7 : α) : α :=
  -(11/180)*v0 + (107/90)*v1 - (21/10)*v2 + (13/18)*v3 + (17/36)*v4 - (3/10)*v5 + (4/45)*v6 - (1/90)*v7

/-- finite_diff.cpp:177-185, interior row; arguments in the order i+3,...,i-3. -/
def der2I (vp3 vp2 vp1 v0 vm1 vm2 vm3 : α) : α :=
  (1/90)*vp3 - (3/20)*vp2 + (3/2)*vp1 - (49/18)*v0 + (3/2)*vm1 - (3/20)*vm2 + (1/90)*vm3

/-- finite_diff.cpp:101-187 `FD::der2`. -/
def der2 (fd : FD α) (v ddv : List α) : Exec (List α) := do
  cassert fd.ndebug (v.length == fd.n)
  cassert fd.ndebug (ddv.length == fd.n)
  let dx2 := Scalar.pown fd.dx 2
  let n1 := usub fd.n 1
  let x ← rd8 v 0 1 2 3 4 5 6 7 fun v0 v1 v2 v3 v4 v5 v6 v7 => der2E0 v0 v1 v2 v3 v4 v5 v6 v7 / dx2
  let ddv ← wr ddv 0 x
  let x ← rd8 v 0 1 2 3 4 5 6 7 fun v0 v1 v2 v3 v4 v5 v6 v7 => der2E1 v0 v1 v2 v3 v4 v5 v6 v7 / dx2
  let ddv ← wr ddv 1 x
  let x ← rd8 v 0 1 2 3 4 5 6 7 fun v0 v1 v2 v3 v4 v5 v6 v7 => der2E2 v0 v1 v2 v3 v4 v5 v6 v7 / dx2
  let ddv ← wr ddv 2 x
  let x ← rd8 v (usub n1 0) (usub n1 1) (usub n1 2) (usub n1 3) (usub n1 4) (usub n1 5) (usub n1 6) (usub n1 7)
    fun v0 v1 v2 v3 v4 v5 v6 v7 => der2E0 v0 v1 v2 v3 v4 v5 v6 v7 / dx2
  let ddv ← wr ddv (usub fd.n 1) x
  let x ← rd8 v (usub n1 0) (usub n1 1) (usub n1 2) (usub n1 3) (usub n1 4) (usub n1 5) (usub n1 6) (usub n1 7)
    fun v0 v1 v2 v3 v4 v5 v6 v7 => der2E1 v0 v1 v2 v3 v4 v5 v6 v7 / dx2
  let ddv ← wr ddv (usub n1 1) x
  let x ← rd8 v (usub n1 0) (usub n1 1) (usub n1 2) (usub n1 3) (usub n1 4) (usub n1 5) (usub n1 6) (usub n1 7)
    fun v0 v1 v2 v3 v4 v5 v6 v7 => der2E2 v0 v1 v2 v3 v4 v5 v6 v7 / dx2
  let ddv ← wr ddv (usub n1 2) x
  forRange 3 (usub fd.n 3) ddv fun i ddv => do
    let x ← rd7 v (i+3) (i+2) (i+1) i (i-1) (i-2) (i-3)
      fun a b c d e f g => der2I a b c d e f g / dx2
    wr ddv i x

/-- finite_diff.cpp:195-210, the dissipation stencil with `eps = 1.0`; arguments i-4,...,i+4. -/
def koE (m4 m3 m2 m1 z p1 p2 p3 p4 : α) : α :=
  let eps : α := 1;
  -(eps/256)*1*m4 - (eps/256)*(-8)*m3 - (eps/256)*28*m2 - (eps/256)*(-56)*m1
    + (1 - (eps/256)*70)*z
    - (eps/256)*(-56)*p1 - (eps/256)*28*p2 - (eps/256)*(-8)*p3 - (eps/256)*1*p4

/-- finite_diff.cpp:191-216 `FD::filter` (in place). -/
def filter (fd : FD α) (v : List α) : Exec (List α) := do
  cassert fd.ndebug (v.length == fd.n)
  let tmp : List α := List.replicate fd.n 0
  let tmp ← forRange 4 (usub fd.n 4) tmp fun i tmp => do
    let m4 ← rd v (i-4)
    let m3 ← rd v (i-3)
    let x ← rd7 v (i-2) (i-1) i (i+1) (i+2) (i+3) (i+4)
      fun m2 m1 z p1 p2 p3 p4 => koE m4 m3 m2 m1 z p1 p2 p3 p4
    wr tmp i x
  forRange 4 (usub fd.n 4) v fun i v => do
    let x ← rd tmp i
    wr v i x

end FD
end SFK
