import Verif.Model.Main
import Verif.Spec.Setup
/-
What a run of the program is supposed to do: files, admissible parameters, the history of states, the tables written.
-/
namespace SFK
open Scalar

/-- Contents of the files, by path (`none`: no such file). -/
abbrev FS := List Char → Option (List Char)

/-- What one event does to the files. -/
def FS.after {α : Type} (fs : FS) : Event α → FS
  | .create p => fun q => if q = p then some ((fs q).getD []) else fs q
  | .append p t => fun q => if q = p then some ((fs q).getD [] ++ t) else fs q
  | .diag _ _ _ => fs

/-- The files after a sequence of events. -/
def FS.replay {α : Type} (fs : FS) (es : List (Event α)) : FS := es.foldl FS.after fs

/-- Name of the file with the spectra of quantity `nm` at save `k`. -/
def pathOf (dir : List Char) (nm : String) (k : Nat) : List Char :=
  dir ++ '/' :: nm.toList ++ "_RPsl_".toList ++ Nat.toDigits 10 k ++ ".csv".toList

/-- Admissible parameters: sizes, libraries with the documented buffer sizes, a harmonic the transform resolves, and numbers as they
come from a parameter file. -/
structure Valid {α : Type} (E : Env α) (P : ParamRec α) : Prop where
  sized : E.Sized P.nx P.nl P.nm P.nlat P.nphi
  sizes : Sizes E.useCheb P.nx P.nl P.nlat P.nphi
  m_nonneg : 0 ≤ P.m_ang
  m_le_l : P.m_ang ≤ P.l_ang
  l_le : P.l_ang ≤ P.nl
  m_le : P.m_ang ≤ P.nm
  nt_lt : P.nt < 2 ^ 31

section
variable {α : Type} [Scalar α]

/-- `lines` is the table of the spectrum of the grid function `v`: a header, and then for every radial point `ix` (outer) and every
degree `l` (inner) one line with the radius, the degree and the logarithm of the power of `v` in degree `l` on shell `ix`. -/
def IsTable (io : IOEnv α) (g : Grid α) (v : List α) (lines : List (List Char)) : Prop :=
  ∃ (S : List α) (R : Nat → α),
    (∀ J z, z.length = g.d.nx * g.d.nl → g.set_angular_power_spectrum J v z = .ok S) ∧
    (∀ ix it ip, ix < g.d.nx → it < g.d.nlat → ip < g.d.nphi → ∃ θ φ, g.getR_th_ph ix it ip = .ok ⟨R ix, θ, φ⟩) ∧
    lines = "R,l,log(value)\n".toList :: (List.range g.d.nx).flatMap fun ix => (List.range g.d.nl).map fun l =>
      io.fmt (R ix) ++ ",".toList ++ io.fmt (dbl l) ++ ",".toList ++ io.fmt (Csv.logValue (gv S (ix * g.d.nl + l))) ++ "\n".toList

/-- The contents of the uninitialised memory that the time step from the state after `k` steps sees, in a run that sees `J`. -/
def stepMem {β : Type} (J : Junk β) (k : Nat) : Junk β := ((J.sub 3).sub (k + 1)).sub 0

/-- The contents of the uninitialised memory that the computation of the energy density after `k` steps sees, in a run that sees `J`. -/
def saveMem {β : Type} (J : Junk β) (k : Nat) : Junk β := if k = 0 then (J.sub 2).sub 0 else (((J.sub 3).sub k).sub 1).sub 0

/-- `(F k, Q k)` is the state after `k` time steps from the initial data, and `(A k, B k)` its filtered version, which `time_step`
leaves in the current level.  `M k` is what the uninitialised memory holds during the step from the state after `k` steps. -/
structure History (P : ParamRec α) (g : Grid α) (M : Nat → Junk (Cx α)) (F Q A B : Nat → List α) : Prop where
  len : ∀ k, (F k).length = P.nx * P.nlat * P.nphi ∧ (Q k).length = P.nx * P.nlat * P.nphi
  start : ∀ J, ID.compact_pulse P g J (List.replicate (P.nx * P.nlat * P.nphi) (lit 0))
    (List.replicate (P.nx * P.nlat * P.nphi) (lit 0)) = .ok (F 0, Q 0)
  filtF : ∀ k J, g.filter J (F k) = .ok (A k)
  filtQ : ∀ k J, g.filter J (Q k) = .ok (B k)
  step : ∀ k e f p, Eom.Of g P e → f.Sized (P.nx * P.nlat * P.nphi) → p.Sized (P.nx * P.nlat * P.nphi) → f.n = F k → p.n = Q k →
    ∃ e' f' p', e.time_step g (M k) f p = .ok (e', f', p') ∧ f'.np1 = F (k + 1) ∧ p'.np1 = Q (k + 1) ∧ f'.n = A k ∧ p'.n = B k

/-- What is computed and written about the state after `k` steps: energy density `D k`, tables `tF k` of the field and `tD k` of the
density, the residual norm and the total variation.  `N k` is what the uninitialised memory holds while the density is computed. -/
structure Derived (P : ParamRec α) (g : Grid α) (io : IOEnv α) (N : Nat → Junk (Cx α)) (F Q A B D : Nat → List α) (tF tD : Nat → List (List Char))
    (res tv : Nat → α) : Prop where
  dens : ∀ k e z, Eom.Of g P e → z.length = P.nx * P.nlat * P.nphi → ∃ e', e.set_rho g (N k) (F k) (Q k) z = .ok (e', D k)
  tabF : ∀ k, IsTable io g (F k) (tF k)
  tabD : ∀ k, IsTable io g (D k) (tD k)
  res0 : g.norm_indep_res P.dt (F 0) (F 0) (Q 0) = .ok (res 0)
  resS : ∀ k, g.norm_indep_res P.dt (A k) (F (k + 1)) (B k) = .ok (res (k + 1))
  tv : ∀ k, g.total_variation (F k) = .ok (tv k)

/-- The events of writing the lines to a file: it is created if need be, and the lines appended, one after the other. -/
def fileEvents (io : IOEnv α) (path : List Char) (lines : List (List Char)) : List (Event α) :=
  if io.canOpen path then .create path :: lines.map (.append path) else []

/-- The events of save number `k`, whose state is the one after `i` steps, printed with time `t`. -/
def saveEvents (io : IOEnv α) (dir : List Char) (tF tD : Nat → List (List Char)) (res tv : Nat → α) (t : α) (k i : Nat) :
    List (Event α) :=
  .diag t (res i) (tv i) :: fileEvents io (pathOf dir "f" k) (tF i) ++ fileEvents io (pathOf dir "rho" k) (tD i)

/-- Running `p` succeeds, puts the lines at the end of the file `path` (creating it if there is none), and touches no other file. -/
def Appends (p : Prog α Unit) (path : List Char) (lines : List (List Char)) : Prop :=
  p.result = .ok () ∧ ∀ (fs : FS) (q : List Char), fs.replay p.events q = if q = path then some ((fs q).getD [] ++ lines.flatten) else fs q

/-- One line of a spectrum table. -/
def specLine (io : IOEnv α) (a b c : α) : List Char :=
  io.fmt a ++ ",".toList ++ io.fmt b ++ ",".toList ++ io.fmt c ++ "\n".toList

/-- The numbers of a printed diagnostics line. -/
def diagOf : Event α → Option (α × α × α)
  | .diag t r v => some (t, r, v)
  | _ => none

end
end SFK
