import Verif.Spec.Setup
/-
Vocabulary of the symmetry properties (C48-C51): several steps of the evolution, superposed, reflected and rotated states.
-/
namespace SFK
open Scalar CR

/-- What is assumed of a run in exact arithmetic: the grid main.cpp builds, libraries meeting their documentation, finite
parameters, a radial interval that is not a point and a compactification length that is not zero. -/
structure Exact (E : Env CR) (P : ParamRec CR) (g : Grid CR) (q : Phys) (x : ℕ → ℝ) (A : ℕ → ℕ → ℕ → ℝ) : Prop where
  setup : Setup E P g
  env : E.Exact P.nx P.nl P.nm P.nlat P.nphi x A
  phys : q.Is P
  lu : q.lo ≠ q.up
  L0 : q.L ≠ 0

/-- `N` iterations of main's evolution loop (main.cpp:68-95 without the saving of files): `time_step`, then `shift` of both fields.
`J k` is the uninitialised memory of iteration `k`. -/
def evolve {α : Type} [Scalar α] (g : Grid α) (J : ℕ → Junk (Cx α)) (e : Eom α) (f p : Field α) : ℕ → Exec (Eom α × Field α × Field α)
  | 0 => .ok (e, f, p)
  | N + 1 => do
    let (e, f, p) ← evolve g J e f p N
    let (e, f, p) ← e.time_step g (J N) f p
    let f ← f.shift
    let p ← p.shift
    .ok (e, f, p)

/-- all values are finite numbers -/
def AllFin (v : List CR) : Prop := ∀ y ∈ v, ∃ r : ℝ, y = fin r

/-- The state stays finite in the first `N` steps. -/
def StaysFinite (g : Grid CR) (e : Eom CR) (f p : Field CR) (N : ℕ) : Prop :=
  ∀ j ≤ N, ∀ J e' f' p', evolve g J e f p j = .ok (e', f', p') → AllFin f'.n ∧ AllFin p'.n

/-- `w` is the grid function `v` shifted by `k` points in the azimuth, `w(ix,it,ip) = v(ix,it,ip+k mod nphi)`. -/
def Rotated (d : Dims) (k : ℕ) (v w : List CR) : Prop :=
  ∀ ix it ip, ix < d.nx → it < d.nlat → ip < d.nphi → d.at3 w ix it ip = d.at3 v ix it ((ip + k) % d.nphi)

/-- `z = a u + b v`, entry by entry -/
def Superposed (a b : ℝ) (u v z : List CR) : Prop :=
  ∀ i, i < z.length → gv z i = fin a * gv u i + fin b * gv v i

end SFK
