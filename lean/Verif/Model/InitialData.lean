import Verif.Model.Grid
import Verif.Model.ParamRec
/-
Model of /repo/Source/initial_data.cpp.
-/
namespace SFK
open Scalar

namespace ID
variable {α : Type} [Scalar α]

/-- initial_data.cpp:34-35 `width`. -/
def width (rl ru : α) : α :=
  let w := fabs (ru - rl)
  if lt (fabs w) (tenth 14) then tenth 14 else w

/-- initial_data.cpp:45-49 `bump` (evaluated in the branch of line 47 only). -/
def bump (rl ru w r : α) : α :=
  if lt r ru && lt rl r then exp (-1 * w / (r - rl)) * exp (-2 * w / (ru - r)) else 0

/-- initial_data.cpp:50, the radial profile. -/
def profile (rl ru w r : α) : α := pown ((r - rl) / w) 4 * pown ((ru - r) / w) 4 * bump rl ru w r

/-- initial_data.cpp:52-58 `partial_r_f`. -/
def slope (rl ru w r : α) : α :=
  (4 * pown ((r - rl) / w) 3 * pown ((ru - r) / w) 4
   - 4 * pown ((r - rl) / w) 4 * pown ((ru - r) / w) 3
   + pown ((r - rl) / w) 2 * pown ((ru - r) / w) 4
   - 2 * pown ((r - rl) / w) 4 * pown ((ru - r) / w) 2) * (bump rl ru w r / w)

/-- initial_data.cpp:59-72, the value stored into `p` before the angular factor. -/
def velocity (dir : List Char) (s : α) : α :=
  if dir = "ingoing".toList then s
  else if dir = "outgoing".toList then -s
  else if dir = "time_symmetric".toList then 0
  else 0

/-- initial_data.cpp:39-84, the first loop nest.  State: `(f, p, max_val)`. -/
def fillLoop (P : ParamRec α) (g : Grid α) (ylm : List α) (f p : List α) : Exec (List α × List α × α) :=
  let w := width P.rl P.ru
  forRange 0 (usub g.d.nx 1) (f, p, (0 : α)) fun ix st => forRange 0 g.d.nphi st fun ip st =>
    forRange 0 g.d.nlat st fun it st => do
      let (f, p, mx) := st
      let x ← g.getR_th_ph ix it ip
      let r := Grid.R_to_r g.cl x.x0
      let i := g.d.indx_R_th_ph ix it ip
      let f ← wr f i (profile P.rl P.ru w r)
      let p ← wr p i (velocity P.direction (slope P.rl P.ru w r))
      let a ← rd f i
      let y ← rd ylm (g.d.indx_th_ph it ip)
      let f ← wr f i (a * y)
      let b ← rd p i
      let p ← wr p i (b * y)
      let a ← rd f i
      .ok (f, p, if lt mx (fabs a) then fabs a else mx)

/-- initial_data.cpp:89-96, the rescaling loop nest. -/
def rescale (P : ParamRec α) (g : Grid α) (mx : α) (f p : List α) : Exec (List α × List α) :=
  forRange 0 g.d.nx (f, p) fun ix st => forRange 0 g.d.nphi st fun ip st =>
    forRange 0 g.d.nlat st fun it st => do
      let i := g.d.indx_R_th_ph ix it ip
      let a ← rd st.1 i
      let f ← wr st.1 i (a * (P.amp / mx))
      let b ← rd st.2 i
      let p ← wr st.2 i (b * (P.amp / mx))
      .ok (f, p)

/-- initial_data.cpp:11-99 `compact_pulse`: returns the new `(f, p)`.  `l_ang`,`m_ang` are `int` converted to `size_t`
(line 37). -/
def compact_pulse (P : ParamRec α) (g : Grid α) (J : Junk (Cx α)) (f p : List α) : Exec (List α × List α) := do
  let ylm ← g.compute_ylm J (Sphere.toU P.l_ang) (Sphere.toU P.m_ang)
  let (f, p, mx) ← fillLoop P g ylm f p
  if lt (tenth 16) (fabs mx) then rescale P g mx f p else .ok (f, p)

end ID
end SFK
