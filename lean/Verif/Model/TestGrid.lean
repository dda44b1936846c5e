import Verif.Model.Grid
import Verif.Model.Tests
/-
Model of /repo/Test/test_grid.cpp: `get_norm_diff`, `get_total_variation` and the two tests that call them.
`pow(x,0.5)` is `rt x`.  Where the program fills several vectors in one loop, each has its own loop here.  `noise i` is the value of
`0.1*rand()/RAND_MAX` in iteration `i`.
-/
namespace SFK
open Scalar

namespace TestGrid
variable {α : Type} [Scalar α]

/-- test_grid.cpp:54-58: `bump` (the factor `k`=10 is absent in get_total_variation, lines 163-167). -/
def bump (k rl ru r : α) : α :=
  if lt r ru && lt rl r then k * exp (-1 * (ru - rl) / (r - rl)) * exp (-2 * (ru - rl) / (ru - r)) else 0

/-- test_grid.cpp:60: `rval` (`k=4`; `k=2` in get_total_variation, line 169). -/
def rval (k : Nat) (rl ru r b : α) : α := pown ((r - rl) / (ru - rl)) k * pown ((ru - r) / (ru - rl)) k * b

/-- test_grid.cpp:62-67: `der_rval`. -/
def der_rval (rl ru r b : α) : α :=
  (4 * pown ((r - rl) / (ru - rl)) 3 * pown ((ru - r) / (ru - rl)) 4
    - 4 * pown ((r - rl) / (ru - rl)) 4 * pown ((ru - r) / (ru - rl)) 3
    + pown ((r - rl) / (ru - rl)) 2 * pown ((ru - r) / (ru - rl)) 4
    - 2 * pown ((r - rl) / (ru - rl)) 4 * pown ((ru - r) / (ru - rl)) 2) * (b / (ru - rl))

/-- test_grid.cpp:69-72, 171-174: the angular factor of `v`. -/
def ang (th ph : α) : α := 1 + pown (sin th) 2 / (1 + pown (cos ph) 2)

/-- test_grid.cpp:69-72: `v[i]`. -/
def vF (rl ru r th ph : α) : α := rval 4 rl ru r (bump 10 rl ru r) * ang th ph
/-- test_grid.cpp:73-76: `dr_v1[i]`. -/
def drF (rl ru r th ph : α) : α := der_rval rl ru r (bump 10 rl ru r) * ang th ph
/-- test_grid.cpp:77-79: `dphi_v1[i]`. -/
def dphiF (rl ru r th ph : α) : α :=
  rval 4 rl ru r (bump 10 rl ru r) * (pown (sin th) 2 * sin (2 * ph) / pown (1 + pown (cos ph) 2) 2)
/-- test_grid.cpp:80-84: `X_v1[i]`. -/
def xF (rl ru r th ph : α) : α :=
  rval 4 rl ru r (bump 10 rl ru r) * pown (sin th) 2 * (pown (cos th) 2 * pown (3 + cos (2 * ph)) 2 + pown (sin (2 * ph)) 2)
    / pown (1 + pown (cos ph) 2) 4
/-- test_grid.cpp:85-91: `lap_v1[i]`. -/
def lapF (rl ru r th ph : α) : α :=
  rval 4 rl ru r (bump 10 rl ru r) * (31 + 57 * cos (2 * th) + 72 * pown (cos th) 2 * cos (2 * ph)
    - 6 * cos (4 * ph) * pown (sin th) 2) / pown (3 + cos (2 * ph)) 3

/-- `for (i<n) { R_th_ph = grid.R_th_ph(i); r = grid.R_to_r(...); v[i] = F(i,r,theta,phi); }` (test_grid.cpp:48-92, 157-177). -/
def fillG (g : Grid α) (n : Nat) (F : Nat → α → α → α → α) : Exec (List α) :=
  forRange 0 n (List.replicate n 0) fun i v => do
    let q ← rd g.R_th_ph i
    wr v i (F i (Grid.R_to_r g.cl q.x0) q.x1 q.x2)

/-- `for (i<n) norm += fabs(a[i]-b[i]); norm /= n;` (test_grid.cpp:105-117). -/
def norm1 (n : Nat) (a b : List α) : Exec α := do
  let t ← forRange 0 n (0 : α) fun i t => do
    let x ← rd a i
    let y ← rd b i
    .ok (t + fabs (x - y))
  .ok (t / dbl n)

/-- test_grid.cpp:17-128 `get_norm_diff`. -/
def get_norm_diff (E : Env α) (J : Junk (Cx α)) (nx nl nm nlat nphi : Nat) (Rmin Rmax : α) : Exec (List α) := do
  let n := umul (umul nx nlat) nphi
  let rl := lit (1 / 10) * (Rmax - Rmin) + Rmin
  let ru := lit (1 / 2) * (Rmax - Rmin) + Rmin
  let g ← Grid.ctor E Rmax Rmin Rmax nx nl nm nlat nphi
  let v ← fillG g n fun _ => vF rl ru
  let dr1 ← fillG g n fun _ => drF rl ru
  let dphi1 ← fillG g n fun _ => dphiF rl ru
  let x1 ← fillG g n fun _ => xF rl ru
  let lap1 ← fillG g n fun _ => lapF rl ru
  let z := List.replicate n (0 : α)
  let dr2 ← g.set_partial_r v z
  let d2r1 ← g.set_partial_r dr1 z
  let d2r2 ← g.set_partial2_r v z
  let dphi2 ← g.set_partial_phi (J.sub 0) v z
  let x2 ← g.set_sphereX (J.sub 1) v z
  let lap2 ← g.set_spherical_lap (J.sub 2) v z
  let a ← norm1 n dr1 dr2
  let b ← norm1 n d2r1 d2r2
  let c ← norm1 n dphi1 dphi2
  let d ← norm1 n x1 x2
  let e ← norm1 n lap1 lap2
  .ok [a, b, c, d, e]

/-- test_grid.cpp:182-221: the total variation of one of the two vectors. -/
def tv3 (g : Grid α) (nx nlat nphi : Nat) (v : List α) : Exec α :=
  forRange 0 (usub nx 1) (0 : α) fun ix tv => forRange 0 (usub nlat 1) tv fun it tv => forRange 0 (usub nphi 1) tv fun ip tv => do
    let c ← rd v (g.d.indx_R_th_ph ix it ip)
    let x ← rd v (g.d.indx_R_th_ph (ix + 1) it ip)
    let y ← rd v (g.d.indx_R_th_ph ix (it + 1) ip)
    let z ← rd v (g.d.indx_R_th_ph ix it (ip + 1))
    .ok (tv + rt (pown (x - c) 2 + pown (y - c) 2 + pown (z - c) 2))

/-- test_grid.cpp:133-228 `get_total_variation`. -/
def get_total_variation (E : Env α) (J : Junk (Cx α)) (noise : Nat → α) (nx nl nm nlat nphi : Nat) (Rmin Rmax : α) : Exec (List α) := do
  let n := umul (umul nx nlat) nphi
  let rl := lit (1 / 10) * (Rmax - Rmin) + Rmin
  let ru := lit (1 / 2) * (Rmax - Rmin) + Rmin
  let g ← Grid.ctor E Rmax Rmin Rmax nx nl nm nlat nphi
  let v ← fillG g n fun i r th ph => rval 2 rl ru r (bump 1 rl ru r) * ang th ph * (1 + noise i)
  let fv ← g.filter J v
  let a ← tv3 g nx nlat nphi v
  let b ← tv3 g nx nlat nphi fv
  .ok [a, b]

/-- test_grid.cpp:232-261 `test_dr_dphi_lap`. -/
def test_dr_dphi_lap (E : Env α) (J : Junk (Cx α)) : Exec Bool := do
  let n1 ← get_norm_diff E (J.sub 0) 48 20 16 42 42 1 10
  let n2 ← get_norm_diff E (J.sub 1) 64 20 16 42 42 1 10
  let n3 ← get_norm_diff E (J.sub 2) 48 40 32 84 84 1 10
  let a1 ← rd n1 0
  let a2 ← rd n2 0
  let b1 ← rd n1 1
  let b2 ← rd n2 1
  let c1 ← rd n1 2
  let c3 ← rd n3 2
  let d1 ← rd n1 3
  let d3 ← rd n3 3
  let e1 ← rd n1 4
  let e3 ← rd n3 4
  .ok (lt a2 a1 && lt b2 b1 && lt c3 c1 && lt d3 d1 && lt e3 e1)

/-- test_grid.cpp:265-286 `test_tvd`; `noise k` are the random numbers of the `k`-th call. -/
def test_tvd (E : Env α) (J : Junk (Cx α)) (noise : Nat → Nat → α) : Exec Bool := do
  let t1 ← get_total_variation E (J.sub 0) (noise 0) 96 16 14 34 34 1 100
  let t2 ← get_total_variation E (J.sub 1) (noise 1) 128 24 20 50 50 1 100
  let a0 ← rd t1 0
  let a1 ← rd t1 1
  let b0 ← rd t2 0
  let b1 ← rd t2 1
  .ok (lt a1 a0 && lt b1 b0)

end TestGrid
end SFK
