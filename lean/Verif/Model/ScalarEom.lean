import Verif.Model.Grid
import Verif.Model.Field
import Verif.Model.ParamRec
/-
Model of /repo/Source/scalar_eom.hpp and /repo/Source/scalar_eom.cpp.
-/
namespace SFK
open Scalar

/-- The background coefficients at one grid point: the `i`-th entries of the members `_pre`, `_p_p`, ...,
`_rho_sphereX` (scalar_eom.hpp; simplification: one array of records instead of 17 arrays of the same length `_n`). -/
structure Coef (α : Type) where
  pre : α
  p_p : α
  p_dr_f : α
  p_dr_p : α
  p_dr_dr_f : α
  p_dphi_dr_f : α
  p_lap_f : α
  p_p_p : α
  p_p_dr_f : α
  p_dr_f_dr_f : α
  p_dr_f_dphi_f : α
  p_sphereX_f : α
  rho_vv : α
  rho_vr : α
  rho_rr : α
  rho_rphi : α
  rho_sphereX : α

/-- The derivative work arrays (scalar_eom.cpp:41-47). -/
structure Scratch (α : Type) where
  dr_f : List α
  lap_f : List α
  dr_p : List α
  dr_dr_f : List α
  dphi_f : List α
  dphi_dr_f : List α
  sphereX_f : List α

section
variable {α : Type} [Scalar α]

instance : Inhabited (Coef α) := ⟨⟨0, 0, 0, 0, 0, 0, 0, 0, 0, 0, 0, 0, 0, 0, 0, 0, 0⟩⟩

/-- scalar_eom.cpp:77-80 `rp`. -/
def kerrRp (m a : α) : α :=
  if lt (fabs (m - fabs a)) (tenth 16) then m
  else if lt (fabs a) (tenth 16) then 2 * m
  else m + rt ((m - a) * (m + a))

/-- scalar_eom.cpp:81-83 `rm`. -/
def kerrRm (m a : α) : α :=
  if lt (fabs (m - fabs a)) (tenth 16) then m else pown a 2 / kerrRp m a

/-- scalar_eom.cpp:67-69 `inv_r`; `cl` is `params.cl()`, `clg` the grid's `_cl` used by `grid.R_to_r`. -/
def invR (cl clg R : α) : α :=
  if lt (fabs (R - cl)) (tenth 16) then 0 else 1 / Grid.R_to_r clg R

/-- scalar_eom.cpp:75-121, as a function of `inv_r` and `th`. -/
def coefOf (m a inv_r th : α) : Coef α :=
  let Sigma := 1 + pown inv_r 2 * pown a 2 * pown (cos th) 2
  let rp := kerrRp m a
  let rm := kerrRm m a
  let Delta := (1 - rp * inv_r) * (1 - rm * inv_r)
  let p_p := 2 * m * pown inv_r 2 / Sigma
  let p_dr_f := 2 * (inv_r - (m * pown inv_r 2)) / Sigma
  let p_dr_p := 4 * m * inv_r / Sigma
  let p_dr_dr_f := Delta / Sigma
  let p_dphi_dr_f := 2 * a * pown inv_r 2 / Sigma
  let p_lap_f := pown inv_r 2 / Sigma
  let p_p_p := -(1 + (2 * m * inv_r / Sigma))
  let p_p_dr_f := 4 * m * inv_r / Sigma
  let p_dr_f_dr_f := Delta / Sigma
  let p_dr_f_dphi_f := 2 * a * pown inv_r 2 / Sigma
  let p_sphereX_f := pown inv_r 2 / Sigma
  let pre := 1 / (1 + (2 * m * inv_r / Sigma))
  { pre := pre
    p_p := p_p * pre
    p_dr_f := p_dr_f * pre
    p_dr_p := p_dr_p * pre
    p_dr_dr_f := p_dr_dr_f * pre
    p_dphi_dr_f := p_dphi_dr_f * pre
    p_lap_f := p_lap_f * pre
    p_p_p := p_p_p * pre
    p_p_dr_f := p_p_dr_f * pre
    p_dr_f_dr_f := p_dr_f_dr_f * pre
    p_dr_f_dphi_f := p_dr_f_dphi_f * pre
    p_sphereX_f := p_sphereX_f * pre
    rho_vv := lit (1/2) * (1 + 2 * m * inv_r / Sigma)
    rho_vr := 2 * m * inv_r / Sigma
    rho_rr := lit (1/2) * (((1 + (2 * m * inv_r) + pown (a * inv_r) 2) / Sigma)
      - (4 * m * inv_r / (2 * m * inv_r + Sigma)))
    rho_rphi := a * pown inv_r 2 / Sigma
    rho_sphereX := lit (1/2) * pown inv_r 2 / Sigma }

end

/-- The data members of class Scalar_eom (scalar_eom.hpp) plus the build flag `NDEBUG`. -/
structure Eom (α : Type) where
  n : Nat
  dt : α
  km1 : α
  k0 : α
  k1 : α
  k2 : α
  v2 : α
  v3 : α
  v4 : α
  coef : List (Coef α)
  scr : Scratch α
  ndebug : Bool

namespace Eom
variable {α : Type} [Scalar α]

/-- scalar_eom.cpp:60-124, the loop nest filling the coefficient arrays. -/
def mkCoef (g : Grid α) (P : ParamRec α) : Exec (List (Coef α)) :=
  forRange 0 g.d.nx (List.replicate g.nTot (default : Coef α)) fun ix cs =>
    forRange 0 g.d.nphi cs fun ip cs => forRange 0 g.d.nlat cs fun it cs => do
      let x ← g.getR_th_ph ix it ip
      wr cs (g.d.indx_R_th_ph ix it ip) (coefOf P.bh_mass P.bh_spin (invR P.cl g.cl x.x0) x.x1)

/-- scalar_eom.cpp:7-126, the constructor. -/
def mk' (g : Grid α) (P : ParamRec α) : Exec (Eom α) := do
  let cs ← mkCoef g P
  let z : List α := List.replicate g.nTot 0
  .ok { n := g.nTot, dt := P.dt, km1 := P.km1, k0 := P.k0, k1 := P.k1, k2 := P.k2, v2 := P.V2, v3 := P.V3,
        v4 := P.V4, coef := cs, scr := ⟨z, z, z, z, z, z, z⟩, ndebug := g.d.ndebug }

/-- scalar_eom.cpp:174-179 `inverse_k`. -/
def inverseK (e : Eom α) (f : α) : α :=
  1 / (e.k0 + e.km1 / (f + 1) + e.k1 * f + (e.k2 / 2) * pown f 2)

/-- scalar_eom.cpp:180-184 `kprime`. -/
def kprime (e : Eom α) (f : α) : α := -e.km1 / pown (f + 1) 2 + e.k1 + e.k2 * f

/-- scalar_eom.cpp:185-189 `vprime` (already divided by k). -/
def vprime (e : Eom α) (f : α) : α :=
  e.inverseK f * (e.v2 * f + (e.v3 / 2) * pown f 2 + (e.v4 / 6) * pown f 3)

/-- scalar_eom.cpp:194-215: the value stored in `p_k[i]`, as a function of the entries it reads. -/
def pk (e : Eom α) (c : Coef α) (f p dr_f dr_p dr_dr_f dphi_f dphi_dr_f sphereX_f lap_f : α) : α :=
  c.p_p * p
  + c.p_dr_f * dr_f
  + c.p_dr_p * dr_p
  + c.p_dr_dr_f * dr_dr_f
  + c.p_dphi_dr_f * dphi_dr_f
  + c.p_lap_f * lap_f
  + lit (1/2) * (e.kprime f * e.inverseK f) * (
      c.p_p_p * pown p 2
      + c.p_p_dr_f * p * dr_f
      + c.p_dr_f_dr_f * pown dr_f 2
      + c.p_dr_f_dphi_f * dr_f * dphi_f
      + c.p_sphereX_f * sphereX_f)
  - c.pre * e.vprime f

/-- scalar_eom.cpp:144-172, the parallel sections of `set_k`, executed in source order. -/
def sections (e : Eom α) (g : Grid α) (J : Junk (Cx α)) (f p : List α) : Exec (Scratch α) := do
  let dr_f ← g.set_partial_r f e.scr.dr_f
  let dr_p ← g.set_partial_r p e.scr.dr_p
  let dr_dr_f ← g.set_partial2_r f e.scr.dr_dr_f
  let dphi_f ← g.set_partial_phi (J.sub 0) f e.scr.dphi_f
  let dphi_dr_f ← g.set_partial_r dphi_f e.scr.dphi_dr_f
  let sphereX_f ← g.set_sphereX (J.sub 1) f e.scr.sphereX_f
  let lap_f ← g.set_spherical_lap (J.sub 2) f e.scr.lap_f
  .ok ⟨dr_f, lap_f, dr_p, dr_dr_f, dphi_f, dphi_dr_f, sphereX_f⟩

/-- scalar_eom.cpp:173-216, the pointwise loop of `set_k`. -/
def kLoop (e : Eom α) (s : Scratch α) (f p fk pk' : List α) : Exec (List α × List α) :=
  forRange 0 e.n (fk, pk') fun i st => do
    let fi ← rd f i
    let pi ← rd p i
    let c ← rd e.coef i
    let a ← rd s.dr_f i
    let b ← rd s.dr_p i
    let c2 ← rd s.dr_dr_f i
    let q ← rd s.dphi_f i
    let d ← rd s.dphi_dr_f i
    let x ← rd s.sphereX_f i
    let l ← rd s.lap_f i
    let fk ← wr st.1 i pi
    let pk' ← wr st.2 i (e.pk c fi pi a b c2 q d x l)
    .ok (fk, pk')

/-- scalar_eom.cpp:132-217 `set_k`: returns the object with its new work arrays and the new `(f_k, p_k)`. -/
def set_k (e : Eom α) (g : Grid α) (J : Junk (Cx α)) (f p fk pk' : List α) :
    Exec (Eom α × List α × List α) := do
  cassert e.ndebug (f.length == e.n)
  cassert e.ndebug (p.length == e.n)
  cassert e.ndebug (fk.length == e.n)
  cassert e.ndebug (pk'.length == e.n)
  let s ← e.sections g J f p
  let (fk, pk') ← e.kLoop s f p fk pk'
  .ok ({ e with scr := s }, fk, pk')

/-- One field's share of a branch of `set_level`: store `stage` into `l[i]` (if any) and `acc` into `np1[i]` (if any),
for every `i<_n`; both are functions of `n[i]`, `k[i]`, `np1[i]`.  (scalar_eom.cpp:225-265; the assignments to `f` and
`p` in one iteration touch disjoint arrays, so `f`'s loop is run before `p`'s here.) -/
def levelLoop (cnt : Nat) (stage : Option (α → α → α)) (acc : Option (α → α → α → α)) (f : Field α) :
    Exec (Field α) := do
  let (l, np1) ← forRange 0 cnt (f.l, f.np1) fun i st => do
    let l ← match stage with
      | none => .ok st.1
      | some g => do
        let n ← rd f.n i
        let k ← rd f.k i
        wr st.1 i (g n k)
    let np1 ← match acc with
      | none => .ok st.2
      | some g => do
        let n ← rd f.n i
        let k ← rd f.k i
        let o ← rd st.2 i
        wr st.2 i (g n k o)
    .ok (l, np1)
  .ok { f with l := l, np1 := np1 }

/-- scalar_eom.cpp:219-270 `set_level`. -/
def set_level (e : Eom α) (level : Int) (f p : Field α) : Exec (Field α × Field α) :=
  let both (stage : Option (α → α → α)) (acc : Option (α → α → α → α)) : Exec (Field α × Field α) := do
    let f ← levelLoop e.n stage acc f
    let p ← levelLoop e.n stage acc p
    .ok (f, p)
  if level = 1 then both (some fun n _ => n) none
  else if level = 2 then
    both (some fun n k => n + lit (1/2) * e.dt * k) (some fun n k _ => n + (e.dt / 6) * k)
  else if level = 3 then
    both (some fun n k => n + lit (1/2) * e.dt * k) (some fun _ k o => o + (e.dt / 3) * k)
  else if level = 4 then
    both (some fun n k => n + e.dt * k) (some fun _ k o => o + (e.dt / 3) * k)
  else if level = 5 then both none (some fun _ k o => o + (e.dt / 6) * k)
  else .ok (f, p)

/-- scalar_eom.cpp:275-304 `time_step`: returns the object (new work arrays) and the two fields. -/
def time_step (e : Eom α) (g : Grid α) (J : Junk (Cx α)) (f p : Field α) :
    Exec (Eom α × Field α × Field α) := do
  cassert e.ndebug (f.size == e.n)
  cassert e.ndebug (p.size == e.n)
  let fn ← g.filter (J.sub 0) f.n
  let pn ← g.filter (J.sub 1) p.n
  let (f, p) ← e.set_level 1 { f with n := fn } { p with n := pn }
  let (e, fk, pk') ← e.set_k g (J.sub 2) f.l p.l f.k p.k
  let (f, p) ← e.set_level 2 { f with k := fk } { p with k := pk' }
  let (e, fk, pk') ← e.set_k g (J.sub 3) f.l p.l f.k p.k
  let (f, p) ← e.set_level 3 { f with k := fk } { p with k := pk' }
  let (e, fk, pk') ← e.set_k g (J.sub 4) f.l p.l f.k p.k
  let (f, p) ← e.set_level 4 { f with k := fk } { p with k := pk' }
  let (e, fk, pk') ← e.set_k g (J.sub 5) f.l p.l f.k p.k
  let (f, p) ← e.set_level 5 { f with k := fk } { p with k := pk' }
  .ok (e, f, p)

/-- scalar_eom.cpp:331-336 `k`. -/
def kVal (e : Eom α) (f : α) : α := e.k0 + e.km1 / (f + 1) + e.k1 * f + (e.k2 / 2) * pown f 2

/-- scalar_eom.cpp:337-341 `v`. -/
def vVal (e : Eom α) (f : α) : α := (e.v2 / 2) * pown f 2 + (e.v3 / 6) * pown f 3 + (e.v4 / 24) * pown f 4

/-- scalar_eom.cpp:343-353: the value stored in `rho[i]`. -/
def rhoVal (e : Eom α) (c : Coef α) (f p dr_f dphi_f sphereX_f : α) : α :=
  e.kVal f * (1 / 2) * (
    c.rho_vv * pown p 2
    + c.rho_vr * p * dr_f
    + c.rho_rr * pown dr_f 2
    + c.rho_rphi * dr_f * dphi_f
    + c.rho_sphereX * sphereX_f)
  + e.vVal f

/-- scalar_eom.cpp:306-356 `set_rho`: returns the object (new work arrays) and the new content of `rho`. -/
def set_rho (e : Eom α) (g : Grid α) (J : Junk (Cx α)) (f p rho : List α) : Exec (Eom α × List α) := do
  cassert e.ndebug (f.length == e.n)
  cassert e.ndebug (p.length == e.n)
  cassert e.ndebug (rho.length == e.n)
  let dr_f ← g.set_partial_r f e.scr.dr_f
  let dphi_f ← g.set_partial_phi (J.sub 0) f e.scr.dphi_f
  let sphereX_f ← g.set_sphereX (J.sub 1) f e.scr.sphereX_f
  let rho ← forRange 0 e.n rho fun i rho => do
    let fi ← rd f i
    let pi ← rd p i
    let c ← rd e.coef i
    let a ← rd dr_f i
    let q ← rd dphi_f i
    let x ← rd sphereX_f i
    wr rho i (e.rhoVal c fi pi a q x)
  .ok ({ e with scr := { e.scr with dr_f := dr_f, dphi_f := dphi_f, sphereX_f := sphereX_f } }, rho)

end Eom
end SFK
